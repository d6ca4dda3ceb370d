import Verif.Base.RustInt
/-!
# Model of src/config (sizes, durations, fix-up, include) and src/utils/paths.rs

Strings are lists of code points. TOML syntax and serde are outside the model: it starts from deserialised values. A
`std::time::Duration` is a number of nanoseconds. A `HashMap` is a list of pairs in its iteration order.
-/

namespace Httpd

/-- A Rust `String`, as its list of code points. -/
abbrev Str := List Nat

/-- `u!"abc"` is the list of code points of the literal. -/
syntax:max (name := strLit) "u!" str : term

macro_rules
  | `(u! $s:str) => do
    let elems ← s.getString.toList.toArray.mapM fun c => `(($(Lean.quote c.toNat) : Nat))
    `(([$elems,*] : List Nat))

/-- The Unicode tables behind `char::is_numeric` and `str::to_lowercase`; what is assumed of them is `Unicode.Lawful` in
Verif/Spec/Config.lean. -/
structure Unicode where
  numeric : Nat → Bool
  lower : Str → Str

/-- How arithmetic overflow behaves (Cargo.toml:6-10 leaves `overflow-checks` at its default): `debug` panics, `release` wraps. -/
inductive Profile
  | debug | release
deriving DecidableEq

/-- Result of something that may also panic. -/
inductive Outcome (α : Type)
  | value (a : α)
  | error
  | panic
deriving DecidableEq

/-! ## Sizes and durations -/

/-- Local variables of `split_unit` (src/config/split_uint.rs:2-5): `items` is `done` followed by `(num, unit)`. -/
structure SplitState where
  done : List (Str × Str)
  num : Str
  unit : Str
  prev : Option Nat
  unitBegin : Bool
deriving DecidableEq

/-- src/config/split_uint.rs:2-5. -/
def SplitState.init : SplitState := ⟨[], [], [], none, false⟩

/-- src/config/split_uint.rs:25-30: the end of the loop body. -/
def SplitState.after (U : Unicode) (st : SplitState) (c : Nat) : SplitState :=
  { st with
    unitBegin := (match st.prev with
      | none => st.unitBegin
      | some p => if U.numeric p && !U.numeric c then true else st.unitBegin)
    prev := some c }

/-- src/config/split_uint.rs:6-31: one iteration. `none` = panic (line 19). -/
def splitStep (U : Unicode) (st : SplitState) (c : Nat) : Option SplitState :=
  if isUnicodeWhitespace c then some st
  else if U.numeric c then
    if st.unitBegin then
      some ({ st with done := st.done ++ [(st.num, st.unit)], num := [c], unit := [], unitBegin := false }.after U c)
    else some ({ st with num := st.num ++ [c] }.after U c)
  else if st.num.isEmpty then none
  else some ({ st with unit := st.unit ++ [c] }.after U c)

/-- src/config/split_uint.rs:6: the loop. -/
def splitLoop (U : Unicode) : SplitState → Str → Option SplitState
  | st, [] => some st
  | st, c :: cs => (splitStep U st c).bind (fun st' => splitLoop U st' cs)

/-- src/config/split_uint.rs:1-34 `split_unit`. `none` = panic. -/
def splitUnit (U : Unicode) (s : Str) : Option (List (Str × Str)) :=
  match splitLoop U .init s with
  | none => none
  | some st => some (st.done ++ [(st.num, st.unit)])

/-- An unsigned 64-bit operation whose mathematical result is `n`. `none` = panic. -/
def arith (p : Profile) (n : Nat) : Option Nat :=
  if n ≤ u64Max then some n
  else
    match p with
    | .debug => none
    | .release => some (n % (u64Max + 1))

/-- The loops src/config/bytes_size.rs:42-73 and src/config/duration_in_millis.rs:48-88, which differ in the table of units. -/
def sumItems (U : Unicode) (p : Profile) (units : Str → Option Nat) : List (Str × Str) → Nat → Outcome Nat
  | [], amount => .value amount
  | (nums, us) :: items, amount =>
    match parseUIntCodepoints u64Max nums with
    | none => .error
    | some num =>
      match units (trimUnicode (U.lower us)) with
      | none => .error
      | some unit =>
        match arith p (num * unit) with
        | none => .panic
        | some prod =>
          match arith p (amount + prod) with
          | none => .panic
          | some amount' => sumItems U p units items amount'

/-- `visit_string` of src/config/bytes_size.rs:31-76 and src/config/duration_in_millis.rs:37-91, given the table of units. -/
def parseAmount (U : Unicode) (p : Profile) (units : Str → Option Nat) (s : Str) : Outcome Nat :=
  if s.isEmpty then .value 0
  else
    match splitUnit U s with
    | none => .panic
    | some items => sumItems U p units items 0

/-- src/config/bytes_size.rs:54-70: the units of sizes. Line 65 has `1204`. -/
def sizeUnit (u : Str) : Option Nat :=
  if u = u!"" ∨ u = u!"b" then some 1
  else if u = u!"k" ∨ u = u!"kb" then some 1024
  else if u = u!"m" ∨ u = u!"mb" then some (1024 * 1024)
  else if u = u!"g" ∨ u = u!"gb" then some (1204 * 1024 * 1024)
  else none

/-- src/config/duration_in_millis.rs:60-85: the units of durations, in milliseconds. -/
def durationUnit (u : Str) : Option Nat :=
  if u = u!"" ∨ u = u!"ms" then some 1
  else if u = u!"s" then some 1000
  else if u = u!"m" then some (60 * 1000)
  else if u = u!"h" then some (60 * 60 * 1000)
  else if u = u!"d" then some (24 * 60 * 60 * 1000)
  else if u = u!"w" then some (7 * 24 * 60 * 60 * 1000)
  else none

/-- src/config/bytes_size.rs:31-76 `SizeInBytesVisitor::visit_string`. -/
def parseSize (U : Unicode) (p : Profile) (s : Str) : Outcome Nat := parseAmount U p sizeUnit s

/-- src/config/duration_in_millis.rs:37-91 `DurationInMillsVisitor::visit_string`, in milliseconds. -/
def parseDuration (U : Unicode) (p : Profile) (s : Str) : Outcome Nat := parseAmount U p durationUnit s

/-! ## Fix-up -/

/-- `Duration::as_millis`. -/
def asMillis (ns : Nat) : Nat := ns / 1000000

/-- src/config/tls.rs:7-16 `TlsConfig`; `timeout` in nanoseconds. -/
structure TlsConfig where
  cert : Str
  key : Str
  timeout : Nat
deriving DecidableEq

/-- src/config/tls.rs:19-32 `TlsConfig::autofix`; it never fails. -/
def TlsConfig.autofix (c : TlsConfig) (root : Option TlsConfig) : TlsConfig :=
  let c := match root with
    | some root => { c with timeout := if c.timeout = 0 then root.timeout else c.timeout }
    | none => c
  { c with timeout := if asMillis c.timeout < 1 then 15 * 1000000000 else c.timeout }

/-- src/config/tcp.rs:8-23 `TcpConfig`. -/
structure TcpConfig where
  addr : Str
  tls : TlsConfig
  readBuf : Nat
  writeBuf : Nat
  buf : Nat
deriving DecidableEq

/-- src/config/tcp.rs:26-58 `TcpConfig::autofix`; it never fails. -/
def TcpConfig.autofix (c : TcpConfig) (root : Option TcpConfig) : TcpConfig :=
  let c := { c with tls := c.tls.autofix (match root with | some v => some v.tls | none => none) }
  let c : TcpConfig := match root with
    | some root =>
      let c := { c with readBuf := if c.readBuf < 1 then root.readBuf else c.readBuf }
      let c := { c with writeBuf := if c.writeBuf < 1 then root.writeBuf else c.writeBuf }
      { c with buf := if c.buf < 1 then root.buf else c.buf }
    | none => c
  let c := { c with readBuf := if c.readBuf < 4096 then 8 * 1024 else c.readBuf }
  let c := { c with writeBuf := if c.writeBuf < 4096 then 8 * 1024 else c.writeBuf }
  { c with buf := if c.buf < 4096 then 8 * 1024 else c.buf }

/-- src/config/http.rs:22-46 `HttpConfig`; `idleTimeout` in nanoseconds. The WebSocket part, which nothing reads, is an opaque
number. -/
structure HttpConfig where
  keepAlive : Option Bool
  idleTimeout : Nat
  maxUrl : Nat
  maxLine : Nat
  maxHeaders : Nat
  maxBody : Nat
  compression : Option Int
  websocket : Option Nat
deriving DecidableEq

/-- src/config/http.rs:49-91 `HttpConfig::autofix`; it never fails. -/
def HttpConfig.autofix (c : HttpConfig) (root : Option HttpConfig) : HttpConfig :=
  let c := match root with
    | some root =>
      let c := { c with keepAlive := if c.keepAlive.isNone then root.keepAlive else c.keepAlive }
      let c := { c with idleTimeout := if c.idleTimeout = 0 then root.idleTimeout else c.idleTimeout }
      let c := { c with maxUrl := if c.maxUrl < 1 then root.maxUrl else c.maxUrl }
      let c := { c with maxLine := if c.maxLine < 1 then root.maxLine else c.maxLine }
      { c with compression := if c.compression.isNone then root.compression else c.compression }
    | none => c
  let c := { c with idleTimeout := if c.idleTimeout ≠ 0 ∧ asMillis c.idleTimeout < 10000 then 10000 * 1000000 else c.idleTimeout }
  let c := { c with maxUrl := if c.maxUrl < 1 then 8 * 1024 else c.maxUrl }
  let c := { c with maxLine := if c.maxLine < 1 then 6 * 1024 else c.maxLine }
  let c := { c with maxHeaders := if c.maxHeaders < 1 then 128 else c.maxHeaders }
  { c with maxBody := if c.maxBody < 1 then 1024 * 1024 * 10 else c.maxBody }

/-- `log::Level`, in the order of the crate: `Error` is the least. -/
inductive Level
  | error | warn | info | debug | trace
deriving DecidableEq

/-- The position of a level in the order of `log::Level`. -/
def Level.rank : Level → Nat
  | .error => 1 | .warn => 2 | .info => 3 | .debug => 4 | .trace => 5

/-- `log::Level::fmt`. -/
def Level.name : Level → Str
  | .error => u!"ERROR" | .warn => u!"WARN" | .info => u!"INFO" | .debug => u!"DEBUG" | .trace => u!"TRACE"

/-- ASCII upper case of one code point. -/
def upperAscii (c : Nat) : Nat := if 97 ≤ c ∧ c ≤ 122 then c - 32 else c

/-- `log::Level::from_str`: comparison with the names ignoring ASCII case; `OFF` is refused for a `Level`. -/
def Level.parse (s : Str) : Option Level :=
  [Level.error, .warn, .info, .debug, .trace].find? (fun l => s.map upperAscii = l.name)

/-- src/config/logging.rs:10-31 `Appender`. -/
inductive AppenderConfig
  | console (level : Option Str)
  | file (level : Option Str) (equal : Option Bool) (daily : Bool) (bufsize : Nat)
deriving DecidableEq

/-- src/config/logging.rs:42-57 `LoggingConfig`. -/
structure LoggingConfig where
  serviceName : Str
  serviceIdx : Nat
  disable : Option Bool
  timelayout : Str
  appenders : List AppenderConfig
deriving DecidableEq

/-- src/config/logging.rs:88-92 `LoggingConfig::autofix`. -/
def LoggingConfig.autofix (c : LoggingConfig) (name : Str) (idx : Nat) : LoggingConfig :=
  { c with serviceName := name, serviceIdx := idx }

/-- src/config/service.rs:74-120 `Service`, without the parts nothing reads (`early`, `rewrites`, `rules`, targets). -/
inductive ServiceSetting
  | helloWorld
  | fileSystem (root : Str)
  | forward
  | upstream
deriving DecidableEq

/-- src/config/service.rs:123-142 `Service::autofix`. `exists` is `Path::exists`. `false` = `Err`. -/
def ServiceSetting.autofix (pathExists : Str → Bool) : ServiceSetting → Bool
  | .fileSystem root =>
    if root.isEmpty then false
    else if !pathExists root then false
    else true
  | _ => true

/-- src/config/service.rs:161-185 `ServiceConfig`, without `src`, which nothing reads. -/
structure ServiceConfig where
  idx : Nat
  name : Str
  host : Str
  service : ServiceSetting
  logging : LoggingConfig
  tcp : TcpConfig
  http : HttpConfig
deriving DecidableEq

/-- src/config/service.rs:188-199 `ServiceConfig::autofix`. `none` = `Err`. -/
def ServiceConfig.autofix (pathExists : Str → Bool) (c : ServiceConfig) (rtcp : TcpConfig) (rhttp : HttpConfig) :
    Option ServiceConfig :=
  let c := { c with logging := c.logging.autofix c.name c.idx }
  let c := { c with tcp := c.tcp.autofix (some rtcp) }
  let c := { c with http := c.http.autofix (some rhttp) }
  if c.service.autofix pathExists then some c else none

/-- src/config/mod.rs:35-68 `Config`, without `runtime` and with the `include` patterns replaced by the files they match
(see `Config.load`). `slab` is `service_logging_appender_map`, from which nothing is ever removed, so that inserting gives the
next index. -/
structure Config where
  logging : LoggingConfig
  logpath : Str
  loglevel : Option Str
  tcp : TcpConfig
  http : HttpConfig
  services : List (Str × ServiceConfig)
  slab : List (List Nat)
deriving DecidableEq

/-- src/config/mod.rs:163-172: the loop of `Config::autofix` over `services.iter_mut()`, with the slab. `none` = `Err`. -/
def fixServices (pathExists : Str → Bool) (tcp : TcpConfig) (http : HttpConfig) :
    List (Str × ServiceConfig) → List (List Nat) → Option (List (Str × ServiceConfig) × List (List Nat))
  | [], slab => some ([], slab)
  | (key, service) :: rest, slab =>
    let name := trimUnicode key
    if name.isEmpty then none
    else
      match ServiceConfig.autofix pathExists { service with name := name, idx := slab.length } tcp http with
      | none => none
      | some service' =>
        match fixServices pathExists tcp http rest (slab ++ [[]]) with
        | none => none
        | some (rest', slab') => some ((key, service') :: rest', slab')

/-- src/config/mod.rs:149-175 `Config::autofix`. `none` = `Err`. -/
def Config.autofix (pathExists : Str → Bool) (c : Config) : Option Config :=
  let c := { c with logging := c.logging.autofix [] 0 }
  let c := { c with logpath := if c.logpath.isEmpty then u!"./logs/" else c.logpath }
  let c := { c with tcp := c.tcp.autofix none }
  let c := { c with http := c.http.autofix none }
  let c := { c with slab := c.slab ++ [[]] }
  match fixServices pathExists c.tcp c.http c.services c.slab with
  | none => none
  | some (services, slab) => some { c with services := services, slab := slab }

/-! ## Paths and including files -/

/-- `slice.split` at slashes. -/
def splitSlash : Str → List Str
  | [] => [[]]
  | c :: cs =>
    if c = 47 then [] :: splitSlash cs
    else
      match splitSlash cs with
      | [] => [[c]]
      | p :: ps => (c :: p) :: ps

/-- The non-empty pieces of a path between slashes, in order, without the `.` pieces: what `Path::components` makes of a Unix
path, apart from a leading `.` or `/`, which never matter for `file_name`. -/
def pathParts (p : Str) : List Str :=
  (splitSlash p).filter (fun s => !s.isEmpty && s != u!".")

/-- `Path::file_name` (std): the last component if it is a normal one. -/
def fileName (p : Str) : Option Str :=
  match (pathParts p).getLast? with
  | none => none
  | some s => if s = u!".." then none else some s

/-- `Path::extension` (std) of a file name: what follows the last `.`, unless there is none or it comes first. -/
def extension (name : Str) : Option Str :=
  let ext := (name.reverse.takeWhile (· != 46)).reverse
  if ext.length = name.length then none
  else if ext.length + 1 = name.length then none
  else some ext

/-- src/utils/paths.rs:5-22 `namewithoutext`. The slice `basename[..n]` panics when `n` is out of range (which includes the
subtraction going below zero). -/
def nameWithoutExt (fp : Str) : Outcome Str :=
  match fileName fp with
  | none => .error
  | some basename =>
    match extension basename with
    | some ext => if ext.length + 1 ≤ basename.length then .value (basename.take (basename.length - ext.length - 1)) else .panic
    | none => .value basename

/-- An item of the iterator `glob::glob(..)`, as far as `include` looks at it: an error, or a path with `is_file`, the result of
`read_to_string`, and what TOML makes of the text (`text = none`: the read fails; `parsed = none`: not a service). `path` is
`to_string_lossy` of the path, whose file name is that of the path. -/
inductive GlobItem
  | err
  | ok (path : Str) (isFile : Bool) (text : Bool) (parsed : Option ServiceConfig)

/-- src/config/mod.rs:72-117: the loop of `Config::include`. `error` = `Err`. -/
def includeLoop : List GlobItem → List (Str × ServiceConfig) → Outcome (List (Str × ServiceConfig))
  | [], services => .value services
  | .err :: es, services => includeLoop es services
  | .ok path isFile text parsed :: es, services =>
    match fileName path with
    | none => includeLoop es services
    | some basename =>
      if !isFile then includeLoop es services
      else if basename.head? = some 46 then includeLoop es services
      else if !text then .error
      else
        match parsed with
        | none => .error
        | some service =>
          let trimmed := trimUnicode service.name
          match (if trimmed.isEmpty then nameWithoutExt path else .value trimmed) with
          | .error => .error
          | .panic => .panic
          | .value name =>
            if services.any (fun s => s.1 = name) then .error
            else includeLoop es (services ++ [(name, { service with name := name })])

/-- src/config/mod.rs:71-119 `Config::include`; `items = none`: the pattern is not a glob. Where in the iteration order of the
map the new services end up is arbitrary; the model puts them last. -/
def includePattern (items : Option (List GlobItem)) (services : List (Str × ServiceConfig)) :
    Outcome (List (Str × ServiceConfig)) :=
  match items with
  | none => .error
  | some es => includeLoop es services

/-- src/config/mod.rs:128-133: the patterns one after another. -/
def includeAll : List (Option (List GlobItem)) → List (Str × ServiceConfig) → Outcome (List (Str × ServiceConfig))
  | [], services => .value services
  | p :: ps, services =>
    match includePattern p services with
    | .value services' => includeAll ps services'
    | .error => .error
    | .panic => .panic

/-- The derived `Default` of the parts (src/config/tls.rs:6, tcp.rs:7, http.rs:21, logging.rs:59-69). -/
def TlsConfig.default : TlsConfig := ⟨[], [], 0⟩
@[inherit_doc TlsConfig.default] def TcpConfig.default : TcpConfig := ⟨[], .default, 0, 0, 0⟩
@[inherit_doc TlsConfig.default] def HttpConfig.default : HttpConfig := ⟨none, 0, 0, 0, 0, 0, none, none⟩
@[inherit_doc TlsConfig.default] def LoggingConfig.default : LoggingConfig := ⟨[], 0, none, [], [.console (some u!"trace")]⟩

/-- src/config/mod.rs:136-140: the service made up when there is none. -/
def defaultService : ServiceConfig :=
  { idx := 0, name := u!"helloworld", host := u!"*", service := .helloWorld, logging := .default,
    tcp := { TcpConfig.default with addr := u!"0.0.0.0:8080" }, http := .default }

/-- src/config/mod.rs:121-147 `Config::load`. `parsed` is what TOML makes of the file (`none` = unreadable or not a
configuration), `chdirOk` the result of changing to the working directory (`true` when none is given), `patterns` what the
patterns of `include` and `includes` match, `order` a rearrangement: the order in which the map of services is iterated. -/
def Config.load (pathExists : Str → Bool) (parsed : Option Config) (chdirOk : Bool) (patterns : List (Option (List GlobItem)))
    (order : List (Str × ServiceConfig) → List (Str × ServiceConfig)) : Outcome Config :=
  match parsed with
  | none => .error
  | some config =>
    if !chdirOk then .error
    else
      match includeAll patterns config.services with
      | .error => .error
      | .panic => .panic
      | .value services =>
        let services := if services.length < 1 then [(u!"helloworld", defaultService)] else services
        match Config.autofix pathExists { config with services := order services } with
        | none => .error
        | some c => .value c

/-! ## Appenders -/

/-- src/config/logging.rs:72-75 `FilterConifg`. -/
structure FilterConfig where
  level : Level
  equal : Bool
deriving DecidableEq

/-- src/config/logging.rs:77-85 `FilterConifg::filter`, given the level of the record. -/
def FilterConfig.filter (f : FilterConfig) (level : Level) : Bool :=
  if f.equal then level = f.level else level.rank ≤ f.level.rank

/-- An appender made by `LoggingConfig::init`: `path = none` for the console. -/
structure AppenderInit where
  service : Nat
  renderer : Str
  filter : FilterConfig
  path : Option Str
  daily : Bool
  bufsize : Nat
deriving DecidableEq

/-- `idx.to_string()` as code points. -/
def natStr (n : Nat) : Str := (natToBytes n).map UInt8.toNat

/-- src/config/logging.rs:108-110, 127-129: the level of an appender. -/
def appenderLevel (level : Option Str) : Level := (Level.parse (level.getD u!"trace")).getD .trace

/-- src/config/logging.rs:132-138: the first choice of path. -/
def logPath1 (logpath name : Str) (level : Level) : Str :=
  if name.isEmpty then logpath ++ u!"/httpd." ++ level.name ++ u!".log"
  else logpath ++ u!"/" ++ name ++ u!"/" ++ level.name ++ u!".log"

/-- src/config/logging.rs:140-146: the second choice of path. -/
def logPath2 (logpath name : Str) (level : Level) (idx : Nat) : Str :=
  if name.isEmpty then logpath ++ u!"/httpd." ++ level.name ++ u!"." ++ natStr idx ++ u!".log"
  else logpath ++ u!"/" ++ name ++ u!"/" ++ level.name ++ u!"." ++ natStr idx ++ u!".log"

/-- src/config/logging.rs:105-174: the loop of `LoggingConfig::init`, from position `idx` on, `fps` being the paths used so far.
`openOk` says whether opening the log file succeeds. `none` = `Err`. -/
def initLoop (openOk : Str → Bool) (logpath name : Str) (service : Nat) :
    List AppenderConfig → Nat → List Str → Option (List AppenderInit)
  | [], _, _ => some []
  | .console level :: rest, idx, fps =>
    match initLoop openOk logpath name service rest (idx + 1) fps with
    | none => none
    | some as => some (⟨service, u!"colored", ⟨appenderLevel level, false⟩, none, false, 0⟩ :: as)
  | .file level equal daily bufsize :: rest, idx, fps =>
    let level := appenderLevel level
    let path := logPath1 logpath name level
    let path := if fps.contains path then logPath2 logpath name level idx else path
    if !openOk path then none
    else
      match initLoop openOk logpath name service rest (idx + 1) (path :: fps) with
      | none => none
      | some as => some (⟨service, u!"json", ⟨level, equal.getD false⟩, some path, daily, bufsize⟩ :: as)

/-- src/config/logging.rs:94-176 `LoggingConfig::init`. Outer `none` = `Err`; inner `none` = disabled. -/
def LoggingConfig.init (openOk : Str → Bool) (logpath : Str) (c : LoggingConfig) : Option (Option (List AppenderInit)) :=
  if c.disable = some true then some none
  else (initLoop openOk logpath c.serviceName c.serviceIdx c.appenders 0 []).map some

/-- src/config/mod.rs:188-195: the appenders of the services, in iteration order. -/
def initServices (openOk : Str → Bool) (logpath : Str) : List (Str × ServiceConfig) → Option (List AppenderInit)
  | [] => some []
  | (_, s) :: rest =>
    match s.logging.init openOk logpath with
    | none => none
    | some a =>
      match initServices openOk logpath rest with
      | none => none
      | some as => some (a.getD [] ++ as)

/-- src/config/mod.rs:181-195: all appenders. `none` = `Err`. -/
def Config.appenders (openOk : Str → Bool) (c : Config) : Option (List AppenderInit) :=
  match c.logging.init openOk c.logpath with
  | none => none
  | some a =>
    match initServices openOk c.logpath c.services with
    | none => none
    | some as => some (a.getD [] ++ as)

/-- src/config/mod.rs:200-205: note appender `idx` under its service. `none` = the `unwrap` panics. -/
def noteAppender (slab : List (List Nat)) (service idx : Nat) : Option (List (List Nat)) :=
  if service < slab.length then some (slab.modify service (· ++ [idx])) else none

/-- src/config/mod.rs:197-206: the loop that notes every appender. -/
def noteAppenders : List AppenderInit → Nat → List (List Nat) → Option (List (List Nat))
  | [], _, slab => some slab
  | a :: as, idx, slab =>
    match noteAppender slab a.service idx with
    | none => none
    | some slab' => noteAppenders as (idx + 1) slab'

end Httpd
