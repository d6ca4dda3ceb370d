import Verif.Model.Logging
/-!
# Model of the `Deserialize` implementations of src/config

From the value of a TOML document to the structures of `Model/Config`. TOML syntax is outside the model. What the crates `serde` and
`toml` do is taken from their documentation: a derived struct takes each of its fields from the entry with the name of the field or
one of its aliases, refuses two entries for a field, ignores entries with other keys (nothing here has `deny_unknown_fields`), and
uses the default for a field without entry (every field here has `#[serde(default)]` or `#[serde(skip)]`); it may also be written as
an array, the fields in the order of their declaration. An `enum` is a table with one entry, the name of the variant, or a string
for a variant without fields. The entries of a table are read in the order in which they stand (the crate keeps the order of the document), so
that of several mistakes - one an `Err`, one a panic - the first one counts.
-/

namespace Httpd

/-- A TOML value. A date is the table with one entry that the crate makes of it. -/
inductive Toml
  | str (s : Str)
  | int (i : Int)
  | float
  | bool (b : Bool)
  | arr (items : List Toml)
  | table (entries : List (Str × Toml))

/-- `?`, with panics. -/
def Outcome.bind {α β : Type} (x : Outcome α) (f : α → Outcome β) : Outcome β :=
  match x with
  | .value a => f a
  | .error => .error
  | .panic => .panic

/-! ## Values -/

/-- `String`. -/
def deStr : Toml → Outcome Str
  | .str s => .value s
  | _ => .error

/-- `bool`. -/
def deBool : Toml → Outcome Bool
  | .bool b => .value b
  | _ => .error

/-- An integer type with the given bounds (`u32`, `i32`). -/
def deInt (lo hi : Int) : Toml → Outcome Int
  | .int i => if lo ≤ i ∧ i ≤ hi then .value i else .error
  | _ => .error

/-- `u32`. -/
def deU32 (v : Toml) : Outcome Nat := (deInt 0 4294967295 v).bind (fun i => .value i.toNat)

/-- `i32`. -/
def deI32 (v : Toml) : Outcome Int := deInt (-2147483648) 2147483647 v

/-- src/config/bytes_size.rs:80-86 `BytesSize`: the visitor has `visit_str` and `visit_string` only. -/
def deSize (U : Unicode) (p : Profile) : Toml → Outcome Nat
  | .str s => parseSize U p s
  | _ => .error

/-- src/config/duration_in_millis.rs:95-101 `DurationInMillis`: the same; in nanoseconds. -/
def deDuration (U : Unicode) (p : Profile) : Toml → Outcome Nat
  | .str s => (parseDuration U p s).bind (fun ms => .value (ms * 1000000))
  | _ => .error

/-- `Option<T>`: what is present is `Some`. -/
def deOpt {α : Type} (de : Toml → Outcome α) (v : Toml) : Outcome (Option α) := (de v).bind (fun a => .value (some a))

/-- One after the other. -/
def deAll {α : Type} (de : Toml → Outcome α) : List Toml → Outcome (List α)
  | [] => .value []
  | v :: vs => (de v).bind (fun a => (deAll de vs).bind (fun as => .value (a :: as)))

/-- `Vec<T>`. -/
def deVec {α : Type} (de : Toml → Outcome α) : Toml → Outcome (List α)
  | .arr vs => deAll de vs
  | _ => .error

/-- The entries of a map one after the other. -/
def deEntries {α : Type} (de : Toml → Outcome α) : List (Str × Toml) → Outcome (List (Str × α))
  | [] => .value []
  | (k, v) :: es => (de v).bind (fun a => (deEntries de es).bind (fun as => .value ((k, a) :: as)))

/-- `HashMap<String, T>`: the keys of a TOML table are distinct. -/
def deMap {α : Type} (de : Toml → Outcome α) : Toml → Outcome (List (Str × α))
  | .table es => deEntries de es
  | _ => .error

/-! ## Structs -/

/-- The value of a field among the entries of a table: `error` if there are two ("duplicate field"). -/
def pick (names : List Str) (es : List (Str × Toml)) : Outcome (Option Toml) :=
  match es.filter (fun e => names.contains e.1) with
  | [] => .value none
  | [e] => .value (some e.2)
  | _ => .error

/-- The values of the fields of a struct, given their names: from the entries of a table or the items of an array. -/
def fieldsFrom (v : Toml) : List (List Str) → Nat → Outcome (List (Option Toml))
  | [], _ => .value []
  | names :: rest, i =>
    match v with
    | .table es => (pick names es).bind (fun x => (fieldsFrom v rest (i + 1)).bind (fun xs => .value (x :: xs)))
    | .arr items => (fieldsFrom v rest (i + 1)).bind (fun xs => .value (items[i]? :: xs))
    | _ => .error

/-- The fields when there is an entry for the `i`-th only. -/
def onlyField (n i : Nat) (x : Toml) : List (Option Toml) := (List.range n).map (fun j => if j = i then some x else none)

/-- `visit_map` of a derived struct that cannot be read: the entries one after the other, up to the first that is a second one for its field or
whose value cannot be read. `make` with one entry alone fails if the value of this entry does. -/
def firstMistake {α : Type} (fields : List (List Str)) (make : List (Option Toml) → Outcome α) : List (Str × Toml) → List Nat → Outcome α
  | [], _ => .error
  | (k, x) :: es, seen =>
    match fields.findIdx? (·.contains k) with
    | none => firstMistake fields make es seen
    | some i =>
      if seen.contains i then .error
      else
        match make (onlyField fields.length i x) with
        | .value _ => firstMistake fields make es (i :: seen)
        | .error => .error
        | .panic => .panic

/-- A derived struct with these fields. -/
def deStruct {α : Type} (fields : List (List Str)) (make : List (Option Toml) → Outcome α) (v : Toml) : Outcome α :=
  match v with
  | .table es =>
    match (fieldsFrom v fields 0).bind make with
    | .value a => .value a
    | _ => firstMistake fields make es []
  | .arr _ => (fieldsFrom v fields 0).bind make
  | _ => .error

/-- The `i`-th field: the default if there is no entry. -/
def field {α : Type} (xs : List (Option Toml)) (i : Nat) (dflt : α) (de : Toml → Outcome α) : Outcome α :=
  match xs[i]? with
  | some (some v) => de v
  | _ => .value dflt

/-! ## The configuration -/

section
variable (U : Unicode) (p : Profile)

/-- src/config/tls.rs:6-16: the fields of `TlsConfig`. -/
def tlsFields : List (List Str) := [[u!"cert"], [u!"key"], [u!"timeout"]]

/-- src/config/tls.rs:6-16 `TlsConfig`. -/
def TlsConfig.de : Toml → Outcome TlsConfig :=
  deStruct tlsFields fun xs =>
    (field xs 0 [] deStr).bind fun cert =>
    (field xs 1 [] deStr).bind fun key =>
    (field xs 2 0 (deDuration U p)).bind fun timeout => .value ⟨cert, key, timeout⟩

/-- src/config/tcp.rs:7-23: the fields of `TcpConfig`. -/
def tcpFields : List (List Str) :=
  [[u!"addr", u!"address", u!"Address", u!"Addr"], [u!"tls"], [u!"read_stream_buf_size", u!"ReadStreamBufSize"],
    [u!"write_stream_buf_size", u!"WriteStreamBufSize"], [u!"buf_size", u!"BufSize"]]

/-- src/config/tcp.rs:7-23 `TcpConfig`. -/
def TcpConfig.de : Toml → Outcome TcpConfig :=
  deStruct tcpFields fun xs =>
    (field xs 0 [] deStr).bind fun addr =>
    (field xs 1 TlsConfig.default (TlsConfig.de U p)).bind fun tls =>
    (field xs 2 0 (deSize U p)).bind fun readBuf =>
    (field xs 3 0 (deSize U p)).bind fun writeBuf =>
    (field xs 4 0 (deSize U p)).bind fun buf => .value ⟨addr, tls, readBuf, writeBuf, buf⟩

/-- src/config/http.rs:6-19: the fields of `WebsocketConfig`. -/
def websocketFields : List (List Str) :=
  [[u!"max_frame_body_size", u!"MaxFrameBodySize"], [u!"max_message_body_size", u!"MaxMessageBodySize"],
    [u!"read_timeout", u!"ReadTimeout"], [u!"compression", u!"Compression"]]

/-- src/config/http.rs:6-19 `WebsocketConfig`: nothing reads it, so it is the number 0 (see `HttpConfig`). -/
def websocketDe : Toml → Outcome Nat :=
  deStruct websocketFields fun xs =>
    (field xs 0 0 (deSize U p)).bind fun _ =>
    (field xs 1 0 (deSize U p)).bind fun _ =>
    (field xs 2 0 (deDuration U p)).bind fun _ =>
    (field xs 3 none (deOpt deI32)).bind fun _ => .value 0

/-- src/config/http.rs:21-46: the fields of `HttpConfig`. -/
def httpFields : List (List Str) :=
  [[u!"keep_alive", u!"KeepAlive"], [u!"idle_timeout", u!"IdleTimeout"], [u!"max_url_size", u!"MaxUrlSize"],
    [u!"max_header_line_size", u!"MaxHeaderLineSize"], [u!"max_headers_count", u!"MaxHeadersCount"],
    [u!"max_body_size", u!"MaxBodySize"], [u!"compression", u!"Compression"], [u!"websocket", u!"Websocket", u!"ws"]]

/-- src/config/http.rs:21-46 `HttpConfig`. -/
def HttpConfig.de : Toml → Outcome HttpConfig :=
  deStruct httpFields fun xs =>
    (field xs 0 none (deOpt deBool)).bind fun keepAlive =>
    (field xs 1 0 (deDuration U p)).bind fun idleTimeout =>
    (field xs 2 0 (deSize U p)).bind fun maxUrl =>
    (field xs 3 0 (deSize U p)).bind fun maxLine =>
    (field xs 4 0 deU32).bind fun maxHeaders =>
    (field xs 5 0 (deSize U p)).bind fun maxBody =>
    (field xs 6 none (deOpt deI32)).bind fun compression =>
    (field xs 7 none (deOpt (websocketDe U p))).bind fun websocket =>
      .value ⟨keepAlive, idleTimeout, maxUrl, maxLine, maxHeaders, maxBody, compression, websocket⟩

/-- The only entry of the table of an enum, with the position of its variant among the names; or a string. -/
def deVariant (variants : List (List Str)) : Toml → Outcome (Nat × Option Toml)
  | .str s => match variants.findIdx? (·.contains s) with
    | some i => .value (i, none)
    | none => .error
  | .table [(k, v)] => match variants.findIdx? (·.contains k) with
    | some i => .value (i, some v)
    | none => .error
  | _ => .error

/-- A struct in a variant. The crate may refuse entries that no field has (`strict`). -/
def deVariantStruct {α : Type} (strict : Bool) (fields : List (List Str)) (make : List (Option Toml) → Outcome α) (v : Toml) :
    Outcome α :=
  match v with
  | .table es => if strict && es.any (fun e => !fields.flatten.contains e.1) then .error else deStruct fields make v
  | _ => deStruct fields make v

variable (strict : Bool)

/-- src/config/logging.rs:9-31 `Appender`. -/
def AppenderConfig.de (v : Toml) : Outcome AppenderConfig :=
  (deVariant [[u!"Console", u!"console"], [u!"File", u!"file"]] v).bind fun
    | (0, some v) =>
      deVariantStruct strict [[u!"level", u!"Level"]] (fun xs =>
        (field xs 0 none (deOpt deStr)).bind fun level => .value (.console level)) v
    | (1, some v) =>
      deVariantStruct strict [[u!"level", u!"Level"], [u!"equal", u!"Equal"], [u!"daily", u!"Daily"], [u!"bufsize", u!"BufferSize"]]
        (fun xs =>
          (field xs 0 none (deOpt deStr)).bind fun level =>
          (field xs 1 none (deOpt deBool)).bind fun equal =>
          (field xs 2 false deBool).bind fun daily =>
          (field xs 3 0 (deSize U p)).bind fun bufsize => .value (.file level equal daily bufsize)) v
    | _ => .error

/-- src/config/logging.rs:41-57: the fields of `LoggingConfig` that are not skipped. -/
def loggingFields : List (List Str) :=
  [[u!"disable", u!"Disable"], [u!"timelayout", u!"TimeLayout", u!"time_layout"], [u!"appenders", u!"Appender"]]

/-- src/config/logging.rs:41-57 `LoggingConfig`. The default of the field `appenders` is the empty vector; the default of the whole
struct (lines 59-69) has an appender. -/
def LoggingConfig.de : Toml → Outcome LoggingConfig :=
  deStruct loggingFields fun xs =>
    (field xs 0 none (deOpt deBool)).bind fun disable =>
    (field xs 1 [] deStr).bind fun timelayout =>
    (field xs 2 [] (deVec (AppenderConfig.de U p strict))).bind fun appenders => .value ⟨[], 0, disable, timelayout, appenders⟩

/-- src/config/matchs.rs:81-113 `Match`: any string, whose text is not looked at. -/
def deMatch : Toml → Outcome Unit
  | .str _ => .value ()
  | _ => .error

/-- src/config/service.rs:9-10 `Rewrite`: a struct without fields. -/
def deRewrite : Toml → Outcome Unit := deStruct [] fun _ => .value ()

/-- src/config/service.rs:12-20 `StaticResponseBody`. -/
def deStaticBody (v : Toml) : Outcome Unit :=
  (deVariant [[u!"None", u!"none", u!"null", u!"nil"], [u!"Text", u!"text", u!"Txt", u!"txt"], [u!"File", u!"file"]] v).bind fun
    | (0, none) => .value ()
    | (0, some (.table [])) => .value ()
    | (0, some (.arr [])) => .value ()
    | (1, some v) => (deStr v).bind fun _ => .value ()
    | (2, some v) => (deStr v).bind fun _ => .value ()
    | _ => .error

/-- src/config/service.rs:28-41 `StaticResponse`. -/
def deStaticResponse : Toml → Outcome Unit :=
  deStruct [[u!"code", u!"Code"], [u!"reason", u!"Reason"], [u!"headers", u!"Headers"], [u!"body", u!"Body"]] fun xs =>
    (field xs 0 none (deOpt deU32)).bind fun _ =>
    (field xs 1 none (deOpt deStr)).bind fun _ =>
    (field xs 2 [] (deVec deStr)).bind fun _ =>
    field xs 3 () deStaticBody

/-- src/config/service.rs:52-59 `EarlyReturn`. -/
def deEarly : Toml → Outcome Unit :=
  deStruct [[u!"matchs", u!"Matchs"], [u!"resp", u!"Resp", u!"response", u!"Response"]] fun xs =>
    (field xs 0 [] (deVec deMatch)).bind fun _ =>
    (field xs 1 none (deOpt deStaticResponse)).bind fun _ => .value ()

/-- src/config/service.rs:61-71 `Rule`. -/
def deRule : Toml → Outcome Unit :=
  deStruct [[u!"match", u!"Match"], [u!"reqrewrites", u!"ReqRewrites", u!"req_rewrites"],
      [u!"resprewrites", u!"RespRewrites", u!"resp_rewrites"]] fun xs =>
    (field xs 0 () deMatch).bind fun _ =>
    (field xs 1 none (deOpt deRewrite)).bind fun _ =>
    (field xs 2 none (deOpt deRewrite)).bind fun _ => .value ()

/-- The names of the field `early` (src/config/service.rs:77, 82, 93, 104). -/
def earlyNames : List Str := [u!"early", u!"Early", u!"filter", u!"Filter"]

/-- src/config/service.rs:73-120 `Service`. -/
def ServiceSetting.de (v : Toml) : Outcome ServiceSetting :=
  (deVariant [[u!"HelloWorld", u!"helloworld"], [u!"FileSystem", u!"fs"], [u!"Forward", u!"forward"], [u!"Upstream", u!"upstream"]]
      v).bind fun
    | (0, some v) =>
      deVariantStruct strict [earlyNames] (fun xs =>
        (field xs 0 none (deOpt deEarly)).bind fun _ => .value .helloWorld) v
    | (1, some v) =>
      deVariantStruct strict [earlyNames, [u!"root", u!"Root"], [u!"rewrites", u!"Rewrites"]] (fun xs =>
        (field xs 0 none (deOpt deEarly)).bind fun _ =>
        (field xs 1 [] deStr).bind fun root =>
        (field xs 2 [] (deMap deRewrite)).bind fun _ => .value (.fileSystem root)) v
    | (2, some v) =>
      deVariantStruct strict [earlyNames, [u!"target_addr", u!"target", u!"Target", u!"TargetAddress"], [u!"rules", u!"Rules"]]
        (fun xs =>
          (field xs 0 none (deOpt deEarly)).bind fun _ =>
          (field xs 1 [] deStr).bind fun _ =>
          (field xs 2 [] (deMap deRule)).bind fun _ => .value .forward) v
    | (3, some v) =>
      deVariantStruct strict [earlyNames,
          [u!"target_addrs", u!"targets", u!"target_addresses", u!"Targets", u!"TargetAddrs", u!"TargetAddresses"],
          [u!"rules", u!"Rules"]]
        (fun xs =>
          (field xs 0 none (deOpt deEarly)).bind fun _ =>
          (field xs 1 [] (deVec deStr)).bind fun _ =>
          (field xs 2 [] (deVec deRule)).bind fun _ => .value .upstream) v
    | _ => .error

/-- src/config/service.rs:160-185: the fields of `ServiceConfig` that are not skipped. -/
def serviceFields : List (List Str) :=
  [[u!"name", u!"Name"], [u!"host", u!"Host"], [u!"service", u!"Service"], [u!"logging", u!"Logging", u!"Log", u!"log"],
    [u!"tcp", u!"Tcp"], [u!"http", u!"Http"]]

/-- src/config/service.rs:160-185 `ServiceConfig`. -/
def ServiceConfig.de : Toml → Outcome ServiceConfig :=
  deStruct serviceFields fun xs =>
    (field xs 0 [] deStr).bind fun name =>
    (field xs 1 [] deStr).bind fun host =>
    (field xs 2 .helloWorld (ServiceSetting.de strict)).bind fun service =>
    (field xs 3 LoggingConfig.default (LoggingConfig.de U p strict)).bind fun logging =>
    (field xs 4 TcpConfig.default (TcpConfig.de U p)).bind fun tcp =>
    (field xs 5 HttpConfig.default (HttpConfig.de U p)).bind fun http => .value ⟨0, name, host, service, logging, tcp, http⟩

/-- src/config/runtime.rs:5-12 `RuntimeConfig`. -/
structure RuntimeConfig where
  workerThreads : Nat
  perCore : Option Bool
deriving DecidableEq

/-- src/config/runtime.rs:5-12: the fields of `RuntimeConfig`. -/
def runtimeFields : List (List Str) := [[u!"worker_threads", u!"WorkerThreads"], [u!"per_core", u!"PerCore"]]

/-- src/config/runtime.rs:5-12 `RuntimeConfig`. -/
def RuntimeConfig.de : Toml → Outcome RuntimeConfig :=
  deStruct runtimeFields fun xs =>
    (field xs 0 0 deU32).bind fun workerThreads =>
    (field xs 1 none (deOpt deBool)).bind fun perCore => .value ⟨workerThreads, perCore⟩

/-- A configuration file: what `Model/Config` has of `Config`, and the other fields (src/config/mod.rs:35-68). -/
structure ConfigFile where
  workdir : Str
  runtime : RuntimeConfig
  config : Config
  «include» : Str
  includes : List Str
deriving DecidableEq

/-- src/config/mod.rs:34-68: the fields of `Config` that are not skipped. -/
def configFields : List (List Str) :=
  [[u!"workdir", u!"Workdir"], [u!"runtime", u!"Runtime"], [u!"logging", u!"Logging", u!"Log", u!"log"],
    [u!"logpath", u!"LogPath", u!"log_path"], [u!"loglevel", u!"LogLevel", u!"log_level"], [u!"tcp", u!"Tcp"], [u!"http", u!"Http"],
    [u!"include", u!"Include"], [u!"includes", u!"Includes"], [u!"services", u!"Services"]]

/-- src/config/mod.rs:34-68 `Config`. -/
def ConfigFile.de : Toml → Outcome ConfigFile :=
  deStruct configFields fun xs =>
    (field xs 0 [] deStr).bind fun workdir =>
    (field xs 1 ⟨0, none⟩ RuntimeConfig.de).bind fun runtime =>
    (field xs 2 LoggingConfig.default (LoggingConfig.de U p strict)).bind fun logging =>
    (field xs 3 [] deStr).bind fun logpath =>
    (field xs 4 none (deOpt deStr)).bind fun loglevel =>
    (field xs 5 TcpConfig.default (TcpConfig.de U p)).bind fun tcp =>
    (field xs 6 HttpConfig.default (HttpConfig.de U p)).bind fun http =>
    (field xs 7 [] deStr).bind fun incl =>
    (field xs 8 [] (deVec deStr)).bind fun includes =>
    (field xs 9 [] (deMap (ServiceConfig.de U p strict))).bind fun services =>
      .value ⟨workdir, runtime, ⟨logging, logpath, loglevel, tcp, http, services, []⟩, incl, includes⟩

/-! ## Loading -/

/-- What a pattern finds: an error, or a path with `is_file`, whether the file can be read as text, and the value of the text if it
is TOML. -/
inductive GlobFile
  | err
  | ok (path : Str) (isFile : Bool) (readable : Bool) (toml : Option Toml)

/-- src/config/mod.rs:75-93: what `include` looks at; `toml::from_str::<ServiceConfig>` is called only for a visible regular file that
can be read. -/
def GlobFile.item : GlobFile → Outcome GlobItem
  | .err => .value .err
  | .ok path isFile readable none => .value (.ok path isFile readable none)
  | .ok path isFile readable (some v) =>
    match ServiceConfig.de U p strict v with
    | .value s => .value (.ok path isFile readable (some s))
    | .error => .value (.ok path isFile readable none)
    | .panic =>
      match fileName path with
      | none => .value (.ok path isFile readable none)
      | some basename => if isFile && basename.head? != some 46 && readable then .panic else .value (.ok path isFile readable none)

/-- The files of a pattern, as far as they are read: up to the first that makes the reading panic, if there is one (`true`). -/
def itemsOf : List GlobFile → List GlobItem × Bool
  | [] => ([], false)
  | g :: gs =>
    match g.item U p strict with
    | .value i => (i :: (itemsOf gs).1, (itemsOf gs).2)
    | _ => ([], true)

/-- The files of the patterns one after the other, up to the first that makes the reading panic, if there is one (`true`). -/
def patternItems (glob : Str → Option (List GlobFile)) : List Str → List (Option (List GlobItem)) × Bool
  | [] => ([], false)
  | pat :: pats =>
    match glob pat with
    | none => (none :: (patternItems glob pats).1, (patternItems glob pats).2)
    | some gs =>
      if (itemsOf U p strict gs).2 then ([some (itemsOf U p strict gs).1], true)
      else (some (itemsOf U p strict gs).1 :: (patternItems glob pats).1, (patternItems glob pats).2)

/-- src/config/mod.rs:128-133: the patterns; an empty `include` is skipped, an empty item of `includes` is not. -/
def ConfigFile.patterns (f : ConfigFile) : List Str := (if f.include.isEmpty then [] else [f.include]) ++ f.includes

/-- src/config/mod.rs:121-147 `Config::load`, from the text of the file on (`none`: it cannot be read or is not TOML). `chdir` is the
result of `set_current_dir`, `glob` what is found by a pattern after that. Files are read one after the other: if one makes the reading panic, that is the result unless including those before it
failed. -/
def loadFile (pathExists chdir : Str → Bool) (glob : Str → Option (List GlobFile))
    (order : List (Str × ServiceConfig) → List (Str × ServiceConfig)) (text : Option Toml) : Outcome Config :=
  match text with
  | none => .error
  | some v =>
    (ConfigFile.de U p strict v).bind fun f =>
      if !f.workdir.isEmpty && !chdir f.workdir then .error
      else
        let items := patternItems U p strict glob f.patterns
        if items.2 then (includeAll items.1 f.config.services).bind fun _ => .panic
        else Config.load pathExists (some f.config) true items.1 order

end

end Httpd
