import Verif.Model.ConfigFile
import Verif.Spec.Config
/-!
# What a configuration file says

The settings of a file, by the names under which they can be written. Of the model only the type of TOML values, the records of the
configuration, and the reading of a size or a duration (which C48, C49, C82 and C83 are about) are used.
-/

namespace Httpd.Spec

/-- The value of a setting in a section: the entry under one of its names or, if the section is written as a list, the item at its
place. -/
def setting (names : List Str) (place : Nat) : Toml → Option Toml
  | .table es => (es.find? (fun e => names.contains e.1)).map (·.2)
  | .arr items => items[place]?
  | _ => none

/-- A section: a list, or a table in which no setting is given twice. -/
def TomlSection (settings : List (List Str)) : Toml → Prop
  | .table es => ∀ names ∈ settings, (es.filter (fun e => names.contains e.1)).length ≤ 1
  | .arr _ => True
  | _ => False

/-- `a` is what is given or, if nothing is given, the default. -/
def Given {α : Type} (R : Toml → α → Prop) (dflt : α) (o : Option Toml) (a : α) : Prop :=
  match o with
  | none => a = dflt
  | some v => R v a

def IsString (v : Toml) (s : Str) : Prop := v = .str s
def IsBool (v : Toml) (b : Bool) : Prop := v = .bool b
def IsInt (lo hi : Int) (v : Toml) (i : Int) : Prop := v = .int i ∧ lo ≤ i ∧ i ≤ hi
def IsCount (v : Toml) (n : Nat) : Prop := v = .int n ∧ n < 2 ^ 32
def IsSize (U : Unicode) (p : Profile) (v : Toml) (n : Nat) : Prop := ∃ s, v = .str s ∧ parseSize U p s = .value n
def IsDuration (U : Unicode) (p : Profile) (v : Toml) (ns : Nat) : Prop :=
  ∃ s ms, v = .str s ∧ parseDuration U p s = .value ms ∧ ns = ms * 1000000
/-- Something optional that is there. -/
def IsSome {α : Type} (R : Toml → α → Prop) (v : Toml) (o : Option α) : Prop := ∃ a, o = some a ∧ R v a
/-- A list, item by item. -/
def IsList {α : Type} (R : Toml → α → Prop) (v : Toml) (l : List α) : Prop := ∃ vs, v = .arr vs ∧ Each2 R vs l
/-- A table with arbitrary keys, entry by entry. -/
def IsMap {α : Type} (R : Toml → α → Prop) (v : Toml) (l : List (Str × α)) : Prop :=
  ∃ es, v = .table es ∧ Each2 (fun e a => e.1 = a.1 ∧ R e.2 a.2) es l

/-- The settings of `[tls]`, each with its names. -/
def tlsSettings : List (List Str) :=
  [[u!"cert"], [u!"key"], [u!"timeout"]]

/-- `[tls]` -/
structure TlsSays (U : Unicode) (p : Profile) (v : Toml) (c : TlsConfig) : Prop where
  sect : TomlSection tlsSettings v
  cert : Given IsString [] (setting [u!"cert"] 0 v) c.cert
  key : Given IsString [] (setting [u!"key"] 1 v) c.key
  timeout : Given (IsDuration U p) 0 (setting [u!"timeout"] 2 v) c.timeout

/-- The settings of `[tcp]`. -/
def tcpSettings : List (List Str) :=
  [[u!"addr", u!"Addr", u!"address", u!"Address"], [u!"tls"], [u!"read_stream_buf_size", u!"ReadStreamBufSize"],
  [u!"write_stream_buf_size", u!"WriteStreamBufSize"], [u!"buf_size", u!"BufSize"]]

/-- `[tcp]` -/
structure TcpSays (U : Unicode) (p : Profile) (v : Toml) (c : TcpConfig) : Prop where
  sect : TomlSection tcpSettings v
  addr : Given IsString [] (setting [u!"addr", u!"Addr", u!"address", u!"Address"] 0 v) c.addr
  tls : Given (TlsSays U p) ⟨[], [], 0⟩ (setting [u!"tls"] 1 v) c.tls
  readBuf : Given (IsSize U p) 0 (setting [u!"read_stream_buf_size", u!"ReadStreamBufSize"] 2 v) c.readBuf
  writeBuf : Given (IsSize U p) 0 (setting [u!"write_stream_buf_size", u!"WriteStreamBufSize"] 3 v) c.writeBuf
  buf : Given (IsSize U p) 0 (setting [u!"buf_size", u!"BufSize"] 4 v) c.buf

/-- `[http.websocket]`: can be read, nothing more is said. -/
structure WebsocketReads (U : Unicode) (p : Profile) (v : Toml) : Prop where
  sect : TomlSection [[u!"max_frame_body_size", u!"MaxFrameBodySize"], [u!"max_message_body_size", u!"MaxMessageBodySize"],
    [u!"read_timeout", u!"ReadTimeout"], [u!"compression", u!"Compression"]] v
  frame : ∃ n, Given (IsSize U p) 0 (setting [u!"max_frame_body_size", u!"MaxFrameBodySize"] 0 v) n
  message : ∃ n, Given (IsSize U p) 0 (setting [u!"max_message_body_size", u!"MaxMessageBodySize"] 1 v) n
  timeout : ∃ n, Given (IsDuration U p) 0 (setting [u!"read_timeout", u!"ReadTimeout"] 2 v) n
  compression : ∃ n, Given (IsSome (IsInt (-2147483648) 2147483647)) none (setting [u!"compression", u!"Compression"] 3 v) n

/-- The settings of `[http]`. -/
def httpSettings : List (List Str) :=
  [[u!"keep_alive", u!"KeepAlive"], [u!"idle_timeout", u!"IdleTimeout"], [u!"max_url_size", u!"MaxUrlSize"],
  [u!"max_header_line_size", u!"MaxHeaderLineSize"], [u!"max_headers_count", u!"MaxHeadersCount"], [u!"max_body_size", u!"MaxBodySize"],
  [u!"compression", u!"Compression"], [u!"websocket", u!"Websocket", u!"ws"]]

/-- `[http]` -/
structure HttpSays (U : Unicode) (p : Profile) (v : Toml) (c : HttpConfig) : Prop where
  sect : TomlSection httpSettings v
  keepAlive : Given (IsSome IsBool) none (setting [u!"keep_alive", u!"KeepAlive"] 0 v) c.keepAlive
  idleTimeout : Given (IsDuration U p) 0 (setting [u!"idle_timeout", u!"IdleTimeout"] 1 v) c.idleTimeout
  maxUrl : Given (IsSize U p) 0 (setting [u!"max_url_size", u!"MaxUrlSize"] 2 v) c.maxUrl
  maxLine : Given (IsSize U p) 0 (setting [u!"max_header_line_size", u!"MaxHeaderLineSize"] 3 v) c.maxLine
  maxHeaders : Given IsCount 0 (setting [u!"max_headers_count", u!"MaxHeadersCount"] 4 v) c.maxHeaders
  maxBody : Given (IsSize U p) 0 (setting [u!"max_body_size", u!"MaxBodySize"] 5 v) c.maxBody
  compression : Given (IsSome (IsInt (-2147483648) 2147483647)) none (setting [u!"compression", u!"Compression"] 6 v) c.compression
  websocket : Given (IsSome fun w n => WebsocketReads U p w ∧ n = 0) none (setting [u!"websocket", u!"Websocket", u!"ws"] 7 v) c.websocket

/-- The one entry of a table, under one of these names. -/
def Only (names : List Str) (v w : Toml) : Prop := ∃ k ∈ names, v = .table [(k, w)]

/-- No entry of a table but for these settings. -/
def NoOther (settings : List (List Str)) : Toml → Prop
  | .table es => ∀ e ∈ es, e.1 ∈ settings.flatten
  | _ => True

/-- A table that a variant of an enum can be read from. -/
def VariantTable (strict : Bool) (settings : List (List Str)) (v : Toml) : Prop :=
  TomlSection settings v ∧ (strict = true → NoOther settings v)

/-- The level of an appender. -/
def LevelSays (v : Toml) (l : Option Str) : Prop := Given (IsSome IsString) none (setting [u!"level", u!"Level"] 0 v) l

/-- An item of `appenders`. Whether the crate refuses further entries here is left open (`strict`). -/
inductive AppenderSays (U : Unicode) (p : Profile) (strict : Bool) (v : Toml) : AppenderConfig → Prop
  | console (w : Toml) (level : Option Str) : Only [u!"Console", u!"console"] v w → VariantTable strict [[u!"level", u!"Level"]] w →
      LevelSays w level → AppenderSays U p strict v (.console level)
  | file (w : Toml) (level : Option Str) (equal : Option Bool) (daily : Bool) (bufsize : Nat) : Only [u!"File", u!"file"] v w →
      VariantTable strict [[u!"level", u!"Level"], [u!"equal", u!"Equal"], [u!"daily", u!"Daily"], [u!"bufsize", u!"BufferSize"]] w →
      LevelSays w level → Given (IsSome IsBool) none (setting [u!"equal", u!"Equal"] 1 w) equal →
      Given IsBool false (setting [u!"daily", u!"Daily"] 2 w) daily →
      Given (IsSize U p) 0 (setting [u!"bufsize", u!"BufferSize"] 3 w) bufsize →
      AppenderSays U p strict v (.file level equal daily bufsize)

/-- The settings of `[logging]`. -/
def loggingSettings : List (List Str) :=
  [[u!"disable", u!"Disable"], [u!"timelayout", u!"TimeLayout", u!"time_layout"], [u!"appenders", u!"Appender"]]

/-- `[logging]` -/
structure LoggingSays (U : Unicode) (p : Profile) (strict : Bool) (v : Toml) (c : LoggingConfig) : Prop where
  sect : TomlSection loggingSettings v
  noName : c.serviceName = []
  noIdx : c.serviceIdx = 0
  disable : Given (IsSome IsBool) none (setting [u!"disable", u!"Disable"] 0 v) c.disable
  timelayout : Given IsString [] (setting [u!"timelayout", u!"TimeLayout", u!"time_layout"] 1 v) c.timelayout
  appenders : Given (IsList (AppenderSays U p strict)) [] (setting [u!"appenders", u!"Appender"] 2 v) c.appenders

/-- The logging of a section that says nothing about it: everything to the console. -/
def logAll : LoggingConfig := ⟨[], 0, none, [], [.console (some u!"trace")]⟩

/-- The settings of `[runtime]`. -/
def runtimeSettings : List (List Str) :=
  [[u!"worker_threads", u!"WorkerThreads"], [u!"per_core", u!"PerCore"]]

/-- `[runtime]` -/
structure RuntimeSays (v : Toml) (c : RuntimeConfig) : Prop where
  sect : TomlSection runtimeSettings v
  workerThreads : Given IsCount 0 (setting [u!"worker_threads", u!"WorkerThreads"] 0 v) c.workerThreads
  perCore : Given (IsSome IsBool) none (setting [u!"per_core", u!"PerCore"] 1 v) c.perCore

/-- A rewrite: any section, nothing is said. -/
def RewriteReads (v : Toml) : Prop := TomlSection [] v

/-- A rule of a match: any text, nothing is said. -/
def MatchReads (v : Toml) : Prop := ∃ s, v = .str s

/-- The body of an early answer. -/
inductive BodyReads : Toml → Prop
  | word (s : Str) : s ∈ [u!"None", u!"none", u!"null", u!"nil"] → BodyReads (.str s)
  | none (v w : Toml) : Only [u!"None", u!"none", u!"null", u!"nil"] v w → w = .table [] ∨ w = .arr [] → BodyReads v
  | text (v : Toml) (s : Str) : Only [u!"Text", u!"text", u!"Txt", u!"txt"] v (.str s) → BodyReads v
  | file (v : Toml) (s : Str) : Only [u!"File", u!"file"] v (.str s) → BodyReads v

/-- The answer of an early return can be read. -/
structure AnswerReads (v : Toml) : Prop where
  sect : TomlSection [[u!"code", u!"Code"], [u!"reason", u!"Reason"], [u!"headers", u!"Headers"], [u!"body", u!"Body"]] v
  code : ∃ a, Given (IsSome IsCount) none (setting [u!"code", u!"Code"] 0 v) a
  reason : ∃ a, Given (IsSome IsString) none (setting [u!"reason", u!"Reason"] 1 v) a
  headers : ∃ a, Given (IsList IsString) [] (setting [u!"headers", u!"Headers"] 2 v) a
  body : Given (fun w (_ : Unit) => BodyReads w) () (setting [u!"body", u!"Body"] 3 v) ()

/-- `early` can be read. -/
structure EarlyReads (v : Toml) : Prop where
  sect : TomlSection [[u!"matchs", u!"Matchs"], [u!"resp", u!"Resp", u!"response", u!"Response"]] v
  matchs : ∃ a, Given (IsList fun w (_ : Unit) => MatchReads w) [] (setting [u!"matchs", u!"Matchs"] 0 v) a
  resp : ∃ a, Given (IsSome fun w (_ : Unit) => AnswerReads w) none (setting [u!"resp", u!"Resp", u!"response", u!"Response"] 1 v) a

/-- A rule of a proxy can be read. -/
structure RuleReads (v : Toml) : Prop where
  sect : TomlSection [[u!"match", u!"Match"], [u!"reqrewrites", u!"req_rewrites", u!"ReqRewrites"],
    [u!"resprewrites", u!"resp_rewrites", u!"RespRewrites"]] v
  cond : ∃ a, Given (fun w (_ : Unit) => MatchReads w) () (setting [u!"match", u!"Match"] 0 v) a
  req : ∃ a, Given (IsSome fun w (_ : Unit) => RewriteReads w) none (setting [u!"reqrewrites", u!"req_rewrites", u!"ReqRewrites"] 1 v) a
  resp : ∃ a, Given (IsSome fun w (_ : Unit) => RewriteReads w) none (setting [u!"resprewrites", u!"resp_rewrites", u!"RespRewrites"] 2 v) a

/-- `early`, also called `filter`. -/
def earlySetting : List Str := [u!"early", u!"Early", u!"filter", u!"Filter"]

/-- `early` is absent or can be read. -/
def EarlyOk (v : Toml) : Prop := ∃ a, Given (IsSome fun w (_ : Unit) => EarlyReads w) none (setting earlySetting 0 v) a

/-- The value of `service`. -/
inductive KindSays (strict : Bool) (v : Toml) : ServiceSetting → Prop
  | hello (w : Toml) : Only [u!"HelloWorld", u!"helloworld"] v w → VariantTable strict [earlySetting] w → EarlyOk w →
      KindSays strict v .helloWorld
  | fs (w : Toml) (root : Str) : Only [u!"FileSystem", u!"fs"] v w →
      VariantTable strict [earlySetting, [u!"root", u!"Root"], [u!"rewrites", u!"Rewrites"]] w → EarlyOk w →
      Given IsString [] (setting [u!"root", u!"Root"] 1 w) root →
      (∃ a, Given (IsMap fun w (_ : Unit) => RewriteReads w) [] (setting [u!"rewrites", u!"Rewrites"] 2 w) a) →
      KindSays strict v (.fileSystem root)
  | forward (w : Toml) : Only [u!"Forward", u!"forward"] v w →
      VariantTable strict [earlySetting, [u!"target", u!"Target", u!"target_addr", u!"TargetAddress"], [u!"rules", u!"Rules"]] w → EarlyOk w →
      (∃ a, Given IsString [] (setting [u!"target", u!"Target", u!"target_addr", u!"TargetAddress"] 1 w) a) →
      (∃ a, Given (IsMap fun w (_ : Unit) => RuleReads w) [] (setting [u!"rules", u!"Rules"] 2 w) a) →
      KindSays strict v .forward
  | upstream (w : Toml) : Only [u!"Upstream", u!"upstream"] v w →
      VariantTable strict [earlySetting, [u!"targets", u!"Targets", u!"target_addrs", u!"TargetAddrs", u!"target_addresses",
        u!"TargetAddresses"], [u!"rules", u!"Rules"]] w → EarlyOk w →
      (∃ a, Given (IsList IsString) [] (setting [u!"targets", u!"Targets", u!"target_addrs", u!"TargetAddrs", u!"target_addresses",
        u!"TargetAddresses"] 1 w) a) →
      (∃ a, Given (IsList fun w (_ : Unit) => RuleReads w) [] (setting [u!"rules", u!"Rules"] 2 w) a) →
      KindSays strict v .upstream

/-- The settings of a service. -/
def serviceSettings : List (List Str) :=
  [[u!"name", u!"Name"], [u!"host", u!"Host"], [u!"service", u!"Service"], [u!"log", u!"Log", u!"logging", u!"Logging"],
  [u!"tcp", u!"Tcp"], [u!"http", u!"Http"]]

/-- A service. -/
structure ServiceSays (U : Unicode) (p : Profile) (strict : Bool) (v : Toml)
    (c : ServiceConfig) : Prop where
  sect : TomlSection serviceSettings v
  noIdx : c.idx = 0
  name : Given IsString [] (setting [u!"name", u!"Name"] 0 v) c.name
  host : Given IsString [] (setting [u!"host", u!"Host"] 1 v) c.host
  service : Given (KindSays strict) .helloWorld (setting [u!"service", u!"Service"] 2 v) c.service
  logging : Given (LoggingSays U p strict) logAll (setting [u!"log", u!"Log", u!"logging", u!"Logging"] 3 v) c.logging
  tcp : Given (TcpSays U p) ⟨[], ⟨[], [], 0⟩, 0, 0, 0⟩ (setting [u!"tcp", u!"Tcp"] 4 v) c.tcp
  http : Given (HttpSays U p) ⟨none, 0, 0, 0, 0, 0, none, none⟩ (setting [u!"http", u!"Http"] 5 v) c.http

/-- The names of the settings of a file. -/
def fileSettings : List (List Str) :=
  [[u!"workdir", u!"Workdir"], [u!"runtime", u!"Runtime"], [u!"log", u!"Log", u!"logging", u!"Logging"],
    [u!"logpath", u!"log_path", u!"LogPath"], [u!"loglevel", u!"log_level", u!"LogLevel"], [u!"tcp", u!"Tcp"], [u!"http", u!"Http"],
    [u!"include", u!"Include"], [u!"includes", u!"Includes"], [u!"services", u!"Services"]]

/-- A file. -/
structure FileSays (U : Unicode) (p : Profile) (strict : Bool) (v : Toml) (c : ConfigFile) :
    Prop where
  sect : TomlSection fileSettings v
  noSlab : c.config.slab = []
  workdir : Given IsString [] (setting [u!"workdir", u!"Workdir"] 0 v) c.workdir
  runtime : Given RuntimeSays ⟨0, none⟩ (setting [u!"runtime", u!"Runtime"] 1 v) c.runtime
  logging : Given (LoggingSays U p strict) logAll (setting [u!"log", u!"Log", u!"logging", u!"Logging"] 2 v) c.config.logging
  logpath : Given IsString [] (setting [u!"logpath", u!"log_path", u!"LogPath"] 3 v) c.config.logpath
  loglevel : Given (IsSome IsString) none (setting [u!"loglevel", u!"log_level", u!"LogLevel"] 4 v) c.config.loglevel
  tcp : Given (TcpSays U p) ⟨[], ⟨[], [], 0⟩, 0, 0, 0⟩ (setting [u!"tcp", u!"Tcp"] 5 v) c.config.tcp
  http : Given (HttpSays U p) ⟨none, 0, 0, 0, 0, 0, none, none⟩ (setting [u!"http", u!"Http"] 6 v) c.config.http
  incl : Given IsString [] (setting [u!"include", u!"Include"] 7 v) c.include
  includes : Given (IsList IsString) [] (setting [u!"includes", u!"Includes"] 8 v) c.includes
  services : Given (IsMap (ServiceSays U p strict)) [] (setting [u!"services", u!"Services"] 9 v) c.config.services

/-! ## The same file, written in another order -/

/-- Two neighbouring entries of one table somewhere in the value exchanged. -/
inductive Swapped : Toml → Toml → Prop
  | here (a b : List (Str × Toml)) (x y : Str × Toml) : Swapped (.table (a ++ x :: y :: b)) (.table (a ++ y :: x :: b))
  | inTable (a b : List (Str × Toml)) (k : Str) (v w : Toml) : Swapped v w → Swapped (.table (a ++ (k, v) :: b)) (.table (a ++ (k, w) :: b))
  | inArr (a b : List Toml) (v w : Toml) : Swapped v w → Swapped (.arr (a ++ v :: b)) (.arr (a ++ w :: b))

/-- Any number of such exchanges. -/
inductive Reordered : Toml → Toml → Prop
  | same (v : Toml) : Reordered v v
  | step (u v w : Toml) : Swapped u v → Reordered v w → Reordered u w

/-- A string occurs in a value. -/
inductive HasString : Toml → Str → Prop
  | here (s : Str) : HasString (.str s) s
  | inTable (es : List (Str × Toml)) (k : Str) (v : Toml) (s : Str) : (k, v) ∈ es → HasString v s → HasString (.table es) s
  | inArr (vs : List Toml) (v : Toml) (s : Str) : v ∈ vs → HasString v s → HasString (.arr vs) s

end Httpd.Spec
