import Verif.Model.Config
import Verif.Model.Appender
/-!
# Model of src/logging (records, renderers, consumer) and of Config::logging

Text of records is bytes (UTF-8), names of renderers are code points as in the configuration. The text a time is rendered to is part
of the record: formatting times (chrono) is outside the model.
-/

namespace Httpd

/-- The text of a level (`log::Level::as_str`), in bytes. -/
def Level.bytes : Level → Bytes
  | .error => b!"ERROR" | .warn => b!"WARN" | .info => b!"INFO" | .debug => b!"DEBUG" | .trace => b!"TRACE"

/-- A value of a key/value pair, as far as `visit_pair` looks at it: `to_u64` and the bytes serde_json writes for it. -/
structure KvValue where
  u64 : Option Nat
  json : Bytes
deriving DecidableEq

/-- A `log::kv::Value` made from a string: `to_u64` is `None`. -/
def KvValue.ofString (json : Bytes) : KvValue := ⟨none, json⟩

/-- A `log::kv::Value` made from an unsigned number below 2^64: serde_json writes its decimal digits. -/
def KvValue.ofNat (n : Nat) : KvValue := ⟨some n, natToBytes n⟩

/-- src/logging/item.rs:5-13 `Item`; `time` is the time as text in the layout of the renderers. -/
structure Item where
  time : Bytes
  level : Level
  file : Bytes
  line : Nat
  msg : Bytes
  kvs : List (Bytes × Bytes)
  service : Nat
deriving DecidableEq

/-- src/logging/item.rs:44-71 `KvsVisitor::visit_pair` on `(kvs, service)`. `usize` has 64 bits. -/
def visitPair (st : List (Bytes × Bytes) × Nat) (pair : Bytes × KvValue) : List (Bytes × Bytes) × Nat :=
  if pair.1.isEmpty then st
  else if pair.1 = b!"service" then
    match pair.2.u64 with
    | some idx => (st.1, idx)
    | none => st
  else (st.1 ++ [(pair.1, pair.2.json)], st.2)

/-- src/logging/item.rs:74-93 `Item::from`. -/
def Item.from (time : Bytes) (level : Level) (file : Option Bytes) (line : Option Nat) (msg : Bytes)
    (pairs : List (Bytes × KvValue)) : Item :=
  let vi := pairs.foldl visitPair ([], 0)
  { time := time, level := level, file := file.getD [], line := line.getD 0, msg := msg, kvs := vi.1, service := vi.2 }

/-! ## Renderers -/

/-- src/logging/json_line_renderer.rs:22-28 `push_with_quote`. -/
def quoted (s : Bytes) : Bytes := [34] ++ s ++ [34]

/-- src/logging/json_line_renderer.rs:67-74: the loop over the key/value pairs; a comma after every pair but the last. -/
def jsonPairs : List (Bytes × Bytes) → Bytes
  | [] => []
  | [(k, v)] => k ++ [58] ++ v
  | (k, v) :: rest => k ++ [58] ++ v ++ [44] ++ jsonPairs rest

/-- src/logging/json_line_renderer.rs:19-79 `JsonLineRenderer::render`. -/
def jsonRender (item : Item) : Bytes :=
  let buf := [123] ++ quoted b!"level" ++ [58] ++ quoted item.level.bytes ++ [44]
  let buf := buf ++ quoted b!"time" ++ [58] ++ quoted item.time ++ [44]
  let buf := buf ++ quoted b!"lineno" ++ [58] ++ quoted (item.file ++ [58] ++ natToBytes item.line) ++ [44]
  let buf := buf ++ quoted b!"message" ++ [58] ++ quoted item.msg
  if item.kvs.isEmpty then buf ++ b!"}\r\n"
  else buf ++ [44] ++ quoted b!"kvs" ++ [58] ++ [123] ++ jsonPairs item.kvs ++ b!"}}\r\n"

/-- src/logging/color.rs:4 `Color`. -/
structure Color where
  r : Nat
  g : Nat
  b : Nat
deriving DecidableEq

/-- src/logging/color.rs:7-9 `Color::is_block`. -/
def Color.isBlock (c : Color) : Bool := c.r = 0 && c.g = 0 && c.b = 1

/-- src/logging/color.rs:12-19 `LevelColors`. -/
structure LevelColors where
  trace : Option Color
  debug : Option Color
  info : Option Color
  warn : Option Color
  error : Option Color
deriving DecidableEq

/-- src/logging/color.rs:22-30 `LevelColors::get`. -/
def LevelColors.get (c : LevelColors) : Level → Option Color
  | .error => c.error | .warn => c.warn | .info => c.info | .debug => c.debug | .trace => c.trace

/-- src/logging/color.rs:45-52 `ColorScheme`. -/
structure ColorScheme where
  levels : Option LevelColors
  time : Option Color
  file : Option Color
  line : Option Color
  key : Option Color
deriving DecidableEq

/-- src/logging/color.rs:33-43, 54-64: the default scheme. -/
def ColorScheme.default : ColorScheme :=
  ⟨some ⟨some ⟨94, 102, 91⟩, some ⟨46, 49, 124⟩, some ⟨91, 174, 35⟩, some ⟨252, 211, 55⟩, some ⟨237, 90, 101⟩⟩,
    some ⟨106, 64, 40⟩, some ⟨85, 187, 138⟩, some ⟨20, 145, 168⟩, some ⟨216, 89, 22⟩⟩

/-- src/logging/colorful_line_renderer.rs:9-26 `with_color`: what is added to the buffer. -/
def withColor (txt : Bytes) : Option Color → Bytes
  | some color =>
    if color.isBlock then txt
    else [27] ++ (b!"[38;2;" ++ natToBytes color.r ++ [59] ++ natToBytes color.g ++ [59] ++ natToBytes color.b ++ [109]) ++ txt ++
      [27] ++ b!"[0m"
  | none => txt

/-- src/logging/colorful_line_renderer.rs:77-84: the loop over the key/value pairs. -/
def colorPairs (key level : Option Color) : List (Bytes × Bytes) → Bytes
  | [] => []
  | [(k, v)] => withColor k key ++ b!": " ++ withColor v level
  | (k, v) :: rest => withColor k key ++ b!": " ++ withColor v level ++ b!" , " ++ colorPairs key level rest

/-- src/logging/colorful_line_renderer.rs:43-87 `ColorfulLineRenderer::render`. -/
def colorRender (scheme : ColorScheme) (item : Item) : Bytes :=
  let level := scheme.levels.bind (·.get item.level)
  let buf := withColor ([91] ++ item.level.bytes ++ [93]) level ++ [32]
  let buf := buf ++ withColor item.time scheme.time
  let buf := buf ++ [32] ++ [40] ++ withColor item.file scheme.file ++ [58] ++ withColor (natToBytes item.line) scheme.line
  let buf := buf ++ b!") " ++ withColor item.msg level
  if item.kvs.isEmpty then buf ++ b!"\r\n"
  else buf ++ b!" { " ++ colorPairs scheme.key level item.kvs ++ b!" }\r\n"

/-- A `dyn Renderer`: its name and what it adds to the buffer. -/
structure Renderer where
  name : Str
  render : Item → Bytes

/-- src/logging/json_line_renderer.rs:11-17, 80-86: the JSON renderer with a name. -/
def Renderer.json (name : Str) : Renderer := ⟨if name.isEmpty then u!"JsonLineRenderer" else name, jsonRender⟩

/-- src/logging/colorful_line_renderer.rs:35-41, 90-117: the colour renderer with a name and the default scheme. -/
def Renderer.colorful (name : Str) : Renderer :=
  ⟨if name.isEmpty then u!"ColorfulLineRenderer" else name, colorRender .default⟩

/-! ## Consumer -/

/-- A `dyn Appender`, as far as the consumer looks at it before writing. -/
structure Appender where
  service : Nat
  renderer : Str
  filter : Item → Bool

/-- The appender made by `LoggingConfig::init`. -/
def AppenderInit.appender (a : AppenderInit) : Appender := ⟨a.service, a.renderer, fun item => a.filter.filter item.level⟩

/-- src/logging/consumer.rs:11-16 `Consumer`. The slab has no holes: nothing is ever removed from it. -/
structure Consumer where
  appenders : List Appender
  renderers : List Renderer
  armap : List Nat
  samap : List (List Nat)

/-- src/logging/consumer.rs:18-27 `unique`: the set is a list without repetitions. -/
def uniqueNames (U : Unicode) (names : List Str) : Bool :=
  let ns := names.foldl (fun ns n => if ns.contains (U.lower n) then ns else ns ++ [U.lower n]) []
  ns.length = names.length

/-- `str::eq_ignore_ascii_case`. -/
def eqNameIgnoreCase (a b : Str) : Bool := a.map upperAscii = b.map upperAscii

/-- src/logging/consumer.rs:43-47 `Consumer::ridx`. -/
def Consumer.ridx (c : Consumer) (name : Str) : Option Nat := c.renderers.findIdx? (fun r => eqNameIgnoreCase r.name name)

/-- src/logging/consumer.rs:62-74: the loop of `Consumer::init` over the appenders. `none` = `Err`. -/
def Consumer.bind (c : Consumer) : List Appender → List Nat → Option (List Nat)
  | [], armap => some armap
  | a :: as, armap =>
    match c.ridx a.renderer with
    | some r => c.bind as (armap ++ [r])
    | none => none

/-- src/logging/consumer.rs:49-76 `Consumer::init`. `none` = `Err`. -/
def Consumer.init (U : Unicode) (c : Consumer) : Option Consumer :=
  if c.renderers.isEmpty then none
  else if c.appenders.isEmpty then none
  else if !uniqueNames U (c.renderers.map (·.name)) then none
  else
    match c.bind c.appenders c.armap with
    | none => none
    | some armap => some { c with armap := armap }

/-- Something done with unchecked indexing: `none` = undefined behaviour. -/
abbrev Unchecked := Option

/-- src/logging/consumer.rs:84-90: the loop of `filter_when_single_renderer`. -/
def Consumer.pick1 (c : Consumer) (item : Item) : List Nat → List Nat → Unchecked (List Nat)
  | [], dest => some dest
  | idx :: rest, dest =>
    match c.appenders[idx]? with
    | none => none
    | some a => c.pick1 item rest (if a.filter item then dest ++ [idx] else dest)

/-- src/logging/consumer.rs:78-92 `filter_when_single_renderer`. -/
def Consumer.filter1 (c : Consumer) (item : Item) : Unchecked (List Nat) :=
  match c.samap[item.service]? with
  | none => some []
  | some idxes => c.pick1 item idxes []

/-- What is handed to the appenders: position and bytes, in order. -/
abbrev Writes := List (Nat × Bytes)

/-- src/logging/consumer.rs:111-114: one write per chosen appender. -/
def Consumer.send1 (c : Consumer) (buf : Bytes) : List Nat → Unchecked Writes
  | [] => some []
  | idx :: rest =>
    match c.appenders[idx]? with
    | none => none
    | some _ => (c.send1 buf rest).map ((idx, buf) :: ·)

/-- src/logging/consumer.rs:94-124 `consume_when_single_renderer`: the new buffers and what is written. Writing is awaited in order;
failures are only printed. -/
def Consumer.consume1 (c : Consumer) (item : Item) (bufs : List Bytes) : Unchecked (List Bytes × Writes) :=
  match c.filter1 item with
  | none => none
  | some idxes =>
    if idxes.length < 1 then some (bufs, [])
    else
      match c.renderers[0]?, bufs[0]? with
      | some r, some _ => (c.send1 (r.render item) idxes).map (fun w => (bufs.set 0 (r.render item), w))
      | _, _ => none

/-- Local variables of `Consumer::filter`: `dest`, `renderer_idxes`, `appender_renderer_map`. -/
structure Picked where
  dest : List Nat
  rendererIdxes : List Nat
  map : List Nat
deriving DecidableEq

/-- src/logging/consumer.rs:138-152: the loop of `Consumer::filter`. -/
def Consumer.pick (c : Consumer) (item : Item) : List Nat → Picked → Unchecked Picked
  | [], st => some st
  | idx :: rest, st =>
    match c.appenders[idx]? with
    | none => none
    | some a =>
      if !a.filter item then c.pick item rest st
      else
        match c.armap[idx]? with
        | none => none
        | some ridx =>
          c.pick item rest
            { dest := st.dest ++ [idx]
              map := st.map ++ [ridx]
              rendererIdxes := if st.rendererIdxes.contains ridx then st.rendererIdxes else st.rendererIdxes ++ [ridx] }

/-- src/logging/consumer.rs:126-155 `Consumer::filter`. -/
def Consumer.filter (c : Consumer) (item : Item) : Unchecked Picked :=
  match c.samap[item.service]? with
  | none => some ⟨[], [], []⟩
  | some idxes => c.pick item idxes ⟨[], [], []⟩

/-- src/logging/consumer.rs:171-176: render once per renderer used. -/
def Consumer.renderAll (c : Consumer) (item : Item) : List Nat → List Bytes → Unchecked (List Bytes)
  | [], bufs => some bufs
  | ridx :: rest, bufs =>
    match bufs[ridx]?, c.renderers[ridx]? with
    | some _, some r => c.renderAll item rest (bufs.set ridx (r.render item))
    | _, _ => none

/-- src/logging/consumer.rs:179-185: one write per chosen appender; the buffer is found by looking up the position of the appender
in `appender_renderer_idx_map`. -/
def Consumer.send (c : Consumer) (bufs : List Bytes) (map : List Nat) : List Nat → Unchecked Writes
  | [] => some []
  | idx :: rest =>
    match map[idx]? with
    | none => none
    | some ridx =>
      match bufs[ridx]?, c.appenders[idx]? with
      | some buf, some _ => (c.send bufs map rest).map ((idx, buf) :: ·)
      | _, _ => none

/-- src/logging/consumer.rs:157-195 `comsume`. -/
def Consumer.consume (c : Consumer) (item : Item) (bufs : List Bytes) : Unchecked (List Bytes × Writes) :=
  match c.filter item with
  | none => none
  | some p =>
    if p.dest.isEmpty then some (bufs, [])
    else
      match c.renderAll item p.rendererIdxes bufs with
      | none => none
      | some bufs' => (c.send bufs' p.map p.dest).map (fun w => (bufs', w))

/-- src/logging/dispatcher.rs:118-122: which of the two is used. -/
def Consumer.handle (c : Consumer) (item : Item) (bufs : List Bytes) : Unchecked (List Bytes × Writes) :=
  if bufs.length = 1 then c.consume1 item bufs else c.consume item bufs

/-- src/logging/dispatcher.rs:94-97: the buffers at the start. -/
def Consumer.bufs (c : Consumer) : List Bytes := c.renderers.map (fun _ => [])

/-- The consumer thread handling records one after the other: everything written. -/
def Consumer.handleAll (c : Consumer) : List Item → List Bytes → Unchecked (List Writes)
  | [], _ => some []
  | item :: items, bufs => (c.handle item bufs).bind (fun r => (c.handleAll items r.1).map (r.2 :: ·))

/-! ## Config::logging -/

/-- src/config/mod.rs:211-233: the renderer for a name. `none` = `Err`. -/
def rendererFor (U : Unicode) (name : Str) : Option Renderer :=
  let n := trimUnicode (U.lower name)
  if n = u!"color" ∨ n = u!"colored" ∨ n = u!"colorful" ∨ n = u!"colorfullinerenderer" then some (.colorful name)
  else if n = [] ∨ n = u!"json" ∨ n = u!"jsonlinerenderer" then some (.json name)
  else none

/-- The renderers for a list of names. -/
def renderersFor (U : Unicode) : List Str → Option (List Renderer)
  | [] => some []
  | n :: ns =>
    match rendererFor U n with
    | none => none
    | some r => (renderersFor U ns).map (r :: ·)

/-- The set of names of renderers (src/config/mod.rs:198), without repetitions. -/
def rendererNames (as : List AppenderInit) : List Str :=
  as.foldl (fun ns a => if ns.contains a.renderer then ns else ns ++ [a.renderer]) []

/-- src/config/mod.rs:235-241: the level of the logger. -/
def loggerLevel (loglevel : Option Str) : Level :=
  match loglevel with
  | some level => (Level.parse level).getD .trace
  | none => .trace

/-- What a call of `Config::logging` comes to. `hang` = it does not return. -/
inductive Started
  | value (r : Consumer × Level)
  | error
  | panic
  | hang

/-- src/logging/dispatcher.rs:61-133 `init` with src/logging/consumer.rs:49-76. The guard is made before `consumer.init()?` (line 85), so
when that fails the guard is dropped on the way out, and its `drop` (lines 46-58) waits for a flag that only the consumer thread sets,
which has not been started: `init` does not return (`Log.unspawned_waits` is the same in the model of the threads). When
`log::set_logger` fails (line 131) the thread is there: dropping the guard closes the channel, the thread sets the flag, and `init`
returns the error. -/
def initLogging (U : Unicode) (level : Level) (appenders : List Appender) (renderers : List Renderer) (samap : List (List Nat))
    (setOk : Bool) : Started :=
  match Consumer.init U ⟨appenders, renderers, [], samap⟩ with
  | none => .hang
  | some consumer => if setOk then .value (consumer, level) else .error

/-- src/config/mod.rs:177-249 `Config::logging`: the consumer that the new thread gets and the level. `order` is the iteration order of
the set of names. `setOk` says whether `log::set_logger` succeeds (it does the first time). `panic` is the `unwrap` at :204. -/
def Config.startLogging (U : Unicode) (openOk : Str → Bool) (order : List Str → List Str) (setOk : Bool) (c : Config) : Started :=
  match c.appenders openOk with
  | none => .error
  | some as =>
    match noteAppenders as 0 c.slab with
    | none => .panic
    | some samap =>
      match renderersFor U (order (rendererNames as)) with
      | none => .error
      | some renderers => initLogging U (loggerLevel c.loglevel) (as.map (·.appender)) renderers samap setOk

/-- `isize::MAX`: `Vec::with_capacity` and the buffers made with it panic for larger capacities ("capacity overflow"). -/
def isizeMax : Nat := 9223372036854775807

/-- Does making the appenders of a section panic? The loop of `initLoop` again: a file that cannot be opened is an error
(src/logging/file_appender.rs:40-58, `open` comes first); then `BufWriter::with_capacity` (:54-63) panics for a size above `isize::MAX`,
and, for a daily file, so does `luxon::endofday(None).unwrap()` (src/logging/rotation_file_appender.rs `next`, called by `new`) when
the end of the day cannot be computed: `midnight` says for each file whether it can be when that file is opened. -/
def initPanics (openOk midnight : Str → Bool) (logpath name : Str) : List AppenderConfig → Nat → List Str → Bool
  | [], _, _ => false
  | .console _ :: rest, idx, fps => initPanics openOk midnight logpath name rest (idx + 1) fps
  | .file level _ daily bufsize :: rest, idx, fps =>
    let level := appenderLevel level
    let path := logPath1 logpath name level
    let path := if fps.contains path then logPath2 logpath name level idx else path
    if !openOk path then false
    else if isizeMax < bufferSize bufsize then true
    else if daily && !midnight path then true
    else initPanics openOk midnight logpath name rest (idx + 1) (path :: fps)

/-- src/config/logging.rs:94-176 `LoggingConfig::init`: does it panic? -/
def LoggingConfig.initPanics (openOk midnight : Str → Bool) (logpath : Str) (c : LoggingConfig) : Bool :=
  if c.disable = some true then false else Httpd.initPanics openOk midnight logpath c.serviceName c.appenders 0 []

/-- src/config/mod.rs:181-195: does making the appenders panic? The sections come one after the other; an error ends the loop. -/
def sectionsPanic (openOk midnight : Str → Bool) (logpath : Str) : List LoggingConfig → Bool
  | [] => false
  | c :: cs =>
    if c.initPanics openOk midnight logpath then true
    else if (c.init openOk logpath).isNone then false
    else sectionsPanic openOk midnight logpath cs

/-- src/config/mod.rs:177-249 `Config::logging`: `Config.startLogging` is what it does if no appender panics while it is made. -/
def Config.initLogging (U : Unicode) (openOk midnight : Str → Bool) (order : List Str → List Str) (setOk : Bool) (c : Config) : Started :=
  if sectionsPanic openOk midnight c.logpath (c.logging :: c.services.map (·.2.logging)) then .panic
  else c.startLogging U openOk order setOk

/-! ## main -/

/-- How `main` goes on after start-up. -/
inductive MainStart
  | failed
  | panicked
  /-- never gets further -/
  | hung
  | noService
  | serving (services : List (Str × ServiceConfig))

/-- `Config::default` (derived, src/config/mod.rs:34-68): everything default, no services. -/
def Config.empty : Config :=
  { logging := .default, logpath := [], loglevel := none, tcp := .default, http := .default, services := [], slab := [] }

/-- src/main.rs:47-65 `load_config` in a release build. `file` is the trimmed command line argument; `load` is `Config::load`. -/
def loadConfig (pathExists : Str → Bool) (file : Str) (load : Str → Outcome Config) : Outcome Config :=
  if !(trimUnicode file).isEmpty then load file
  else
    match Config.empty.autofix pathExists with
    | some c => .value c
    | none => .error

/-- src/main.rs:270-290 `main` up to the point where the services are started. -/
def mainStart (config : Outcome Config) (logging : Config → Started) : MainStart :=
  match config with
  | .error => .failed
  | .panic => .panicked
  | .value c =>
    match logging c with
    | .error => .failed
    | .panic => .panicked
    | .hang => .hung
    | .value _ => if c.services.length < 1 then .noService else .serving c.services

/-! ## Records the server writes about a connection -/

/-- src/serve.rs:63 (and :24, :94): the record about a failing handler; the service is given by name, as a string. `json` is the name
as serde_json writes it. -/
def serveRecord (time file msg json : Bytes) (line : Nat) : Item :=
  Item.from time .error (some file) (some line) msg [(b!"service", .ofString json)]

/-- src/services/helloworld.rs:39: a record about a request; the service is given by number. -/
def helloRecord (time file msg : Bytes) (line idx : Nat) : Item :=
  Item.from time .trace (some file) (some line) msg [(b!"service", .ofNat idx)]

end Httpd
