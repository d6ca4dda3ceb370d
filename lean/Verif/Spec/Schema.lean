import Verif.Spec.ConfigFile
/-!
# The types of the settings of a configuration file

One table for the whole file: which settings there are in which section, under which names, and what kind of value each of them takes.
-/

namespace Httpd.Spec

/-- The kinds of values. Sizes and durations are texts. -/
inductive Kind
  | text
  | flag
  | integer (lo hi : Int)
  /-- an empty table or list -/
  | nothing
  | list (item : Kind)
  /-- a table with names of the user's choice -/
  | named (entry : Kind)
  /-- a section with these settings, each under any of its names -/
  | settings (ss : List (List Str × Kind))
  /-- one of these, under any of its names -/
  | oneOf (vs : List (List Str × Kind))

/-- A value of this kind, in all its parts. A section may be written as a list, its settings in their order. No setting is given twice;
entries that are not settings may be anything. -/
inductive Fits : Kind → Toml → Prop
  | text (s : Str) : Fits .text (.str s)
  | flag (b : Bool) : Fits .flag (.bool b)
  | integer (lo hi i : Int) : lo ≤ i → i ≤ hi → Fits (.integer lo hi) (.int i)
  | emptyTable : Fits .nothing (.table [])
  | emptyList : Fits .nothing (.arr [])
  | list (k : Kind) (vs : List Toml) : (∀ v ∈ vs, Fits k v) → Fits (.list k) (.arr vs)
  | named (k : Kind) (es : List (Str × Toml)) : (∀ e ∈ es, Fits k e.2) → Fits (.named k) (.table es)
  | table (ss : List (List Str × Kind)) (es : List (Str × Toml)) :
      (∀ s ∈ ss, (es.filter (fun e => s.1.contains e.1)).length ≤ 1) → (∀ s ∈ ss, ∀ e ∈ es, e.1 ∈ s.1 → Fits s.2 e.2) →
      Fits (.settings ss) (.table es)
  | inOrder (ss : List (List Str × Kind)) (vs : List Toml) :
      (∀ (i : Nat) (s : List Str × Kind) (v : Toml), ss[i]? = some s → vs[i]? = some v → Fits s.2 v) → Fits (.settings ss) (.arr vs)
  | one (vs : List (List Str × Kind)) (s : List Str × Kind) (k : Str) (v : Toml) : s ∈ vs → k ∈ s.1 → Fits s.2 v → Fits (.oneOf vs) (.table [(k, v)])
  | word (vs : List (List Str × Kind)) (names : List Str) (k : Str) : (names, Kind.nothing) ∈ vs → k ∈ names → Fits (.oneOf vs) (.str k)

/-- A number below 2^32. -/
def Kind.count : Kind := .integer 0 (2 ^ 32 - 1)

def tlsKind : Kind := .settings [([u!"cert"], .text), ([u!"key"], .text), ([u!"timeout"], .text)]

def tcpKind : Kind := .settings
  [([u!"addr", u!"Addr", u!"address", u!"Address"], .text), ([u!"tls"], tlsKind), ([u!"read_stream_buf_size", u!"ReadStreamBufSize"], .text),
   ([u!"write_stream_buf_size", u!"WriteStreamBufSize"], .text), ([u!"buf_size", u!"BufSize"], .text)]

def websocketKind : Kind := .settings
  [([u!"max_frame_body_size", u!"MaxFrameBodySize"], .text), ([u!"max_message_body_size", u!"MaxMessageBodySize"], .text),
   ([u!"read_timeout", u!"ReadTimeout"], .text), ([u!"compression", u!"Compression"], .integer (-2147483648) 2147483647)]

def httpKind : Kind := .settings
  [([u!"keep_alive", u!"KeepAlive"], .flag), ([u!"idle_timeout", u!"IdleTimeout"], .text), ([u!"max_url_size", u!"MaxUrlSize"], .text),
   ([u!"max_header_line_size", u!"MaxHeaderLineSize"], .text), ([u!"max_headers_count", u!"MaxHeadersCount"], .count),
   ([u!"max_body_size", u!"MaxBodySize"], .text), ([u!"compression", u!"Compression"], .integer (-2147483648) 2147483647),
   ([u!"websocket", u!"Websocket", u!"ws"], websocketKind)]

def appenderKind : Kind := .oneOf
  [([u!"Console", u!"console"], .settings [([u!"level", u!"Level"], .text)]),
   ([u!"File", u!"file"], .settings [([u!"level", u!"Level"], .text), ([u!"equal", u!"Equal"], .flag), ([u!"daily", u!"Daily"], .flag),
     ([u!"bufsize", u!"BufferSize"], .text)])]

def loggingKind : Kind := .settings
  [([u!"disable", u!"Disable"], .flag), ([u!"timelayout", u!"TimeLayout", u!"time_layout"], .text), ([u!"appenders", u!"Appender"], .list appenderKind)]

def runtimeKind : Kind := .settings [([u!"worker_threads", u!"WorkerThreads"], .count), ([u!"per_core", u!"PerCore"], .flag)]

def bodyKind : Kind := .oneOf
  [([u!"None", u!"none", u!"null", u!"nil"], .nothing), ([u!"Text", u!"text", u!"Txt", u!"txt"], .text), ([u!"File", u!"file"], .text)]

def answerKind : Kind := .settings
  [([u!"code", u!"Code"], .count), ([u!"reason", u!"Reason"], .text), ([u!"headers", u!"Headers"], .list .text), ([u!"body", u!"Body"], bodyKind)]

def earlyKind : Kind := .settings
  [([u!"matchs", u!"Matchs"], .list .text), ([u!"resp", u!"Resp", u!"response", u!"Response"], answerKind)]

def ruleKind : Kind := .settings
  [([u!"match", u!"Match"], .text), ([u!"reqrewrites", u!"req_rewrites", u!"ReqRewrites"], .settings []),
   ([u!"resprewrites", u!"resp_rewrites", u!"RespRewrites"], .settings [])]

def serviceKindKind : Kind := .oneOf
  [([u!"HelloWorld", u!"helloworld"], .settings [([u!"early", u!"Early", u!"filter", u!"Filter"], earlyKind)]),
   ([u!"FileSystem", u!"fs"], .settings [([u!"early", u!"Early", u!"filter", u!"Filter"], earlyKind), ([u!"root", u!"Root"], .text),
     ([u!"rewrites", u!"Rewrites"], .named (.settings []))]),
   ([u!"Forward", u!"forward"], .settings [([u!"early", u!"Early", u!"filter", u!"Filter"], earlyKind),
     ([u!"target", u!"Target", u!"target_addr", u!"TargetAddress"], .text), ([u!"rules", u!"Rules"], .named ruleKind)]),
   ([u!"Upstream", u!"upstream"], .settings [([u!"early", u!"Early", u!"filter", u!"Filter"], earlyKind),
     ([u!"targets", u!"Targets", u!"target_addrs", u!"TargetAddrs", u!"target_addresses", u!"TargetAddresses"], .list .text),
     ([u!"rules", u!"Rules"], .list ruleKind)])]

/-- A service, in the file or in one of its own. -/
def serviceKind : Kind := .settings
  [([u!"name", u!"Name"], .text), ([u!"host", u!"Host"], .text), ([u!"service", u!"Service"], serviceKindKind),
   ([u!"log", u!"Log", u!"logging", u!"Logging"], loggingKind), ([u!"tcp", u!"Tcp"], tcpKind), ([u!"http", u!"Http"], httpKind)]

/-- The file. -/
def fileKind : Kind := .settings
  [([u!"workdir", u!"Workdir"], .text), ([u!"runtime", u!"Runtime"], runtimeKind), ([u!"log", u!"Log", u!"logging", u!"Logging"], loggingKind),
   ([u!"logpath", u!"log_path", u!"LogPath"], .text), ([u!"loglevel", u!"log_level", u!"LogLevel"], .text), ([u!"tcp", u!"Tcp"], tcpKind),
   ([u!"http", u!"Http"], httpKind), ([u!"include", u!"Include"], .text), ([u!"includes", u!"Includes"], .list .text),
   ([u!"services", u!"Services"], .named serviceKind)]

end Httpd.Spec
