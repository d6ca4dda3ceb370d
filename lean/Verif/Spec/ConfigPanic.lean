import Verif.Spec.ConfigFile
import Verif.Spec.Include
/-!
# Which configuration files stop the program with a panic (C147)

Of the model only the reading of a size or a duration (C48 to C50, C82, C83) is used, as in `Spec/ConfigFile`.
-/

namespace Httpd.Spec

/-- A setting at whose value the program can panic: its place in a section that is written as a list, its names, and the values at which it does. -/
structure Danger where
  place : Nat
  names : List Str
  panics : Toml → Prop

/-- The reading of a section panics: at the first entry for one of these settings, or at the item at its place; what stands before can be read, what follows does not matter. -/
def StopsIn (readable : Toml → Prop) (dangers : List Danger) : Toml → Prop
  | .table es => ∃ d ∈ dangers, ∃ (before : List (Str × Toml)) (k : Str) (w : Toml) (after : List (Str × Toml)), es = before ++ (k, w) :: after ∧
      k ∈ d.names ∧ (∀ e ∈ before, e.1 ∉ d.names) ∧ readable (.table before) ∧ d.panics w
  | .arr items => ∃ d ∈ dangers, ∃ w, items[d.place]? = some w ∧ readable (.arr (items.take d.place)) ∧ d.panics w
  | _ => False

/-- The same for a list of things of one kind. -/
def ListPanics (readable panics : Toml → Prop) (v : Toml) : Prop :=
  ∃ before w after, v = .arr (before ++ w :: after) ∧ (∀ u ∈ before, readable u) ∧ panics w

/-- The same for a table with arbitrary keys. -/
def MapPanics (readable panics : Toml → Prop) (v : Toml) : Prop :=
  ∃ (before : List (Str × Toml)) (k : Str) (w : Toml) (after : List (Str × Toml)), v = .table (before ++ (k, w) :: after) ∧ (∀ e ∈ before, readable e.2) ∧ panics w

section
variable (U : Unicode) (p : Profile)

def SizePanics (v : Toml) : Prop := ∃ s, v = .str s ∧ parseSize U p s = .panic
def DurationPanics (v : Toml) : Prop := ∃ s, v = .str s ∧ parseDuration U p s = .panic

/-- `[tls]` -/
def TlsPanics : Toml → Prop := StopsIn (fun v => ∃ c, TlsSays U p v c) [⟨2, [u!"timeout"], DurationPanics U p⟩]

/-- `[tcp]` -/
def TcpPanics : Toml → Prop := StopsIn (fun v => ∃ c, TcpSays U p v c)
  [⟨1, [u!"tls"], TlsPanics U p⟩, ⟨2, [u!"read_stream_buf_size", u!"ReadStreamBufSize"], SizePanics U p⟩,
   ⟨3, [u!"write_stream_buf_size", u!"WriteStreamBufSize"], SizePanics U p⟩, ⟨4, [u!"buf_size", u!"BufSize"], SizePanics U p⟩]

/-- `[http.websocket]` -/
def WebsocketPanics : Toml → Prop := StopsIn (WebsocketReads U p)
  [⟨0, [u!"max_frame_body_size", u!"MaxFrameBodySize"], SizePanics U p⟩, ⟨1, [u!"max_message_body_size", u!"MaxMessageBodySize"], SizePanics U p⟩,
   ⟨2, [u!"read_timeout", u!"ReadTimeout"], DurationPanics U p⟩]

/-- `[http]` -/
def HttpPanics : Toml → Prop := StopsIn (fun v => ∃ c, HttpSays U p v c)
  [⟨1, [u!"idle_timeout", u!"IdleTimeout"], DurationPanics U p⟩, ⟨2, [u!"max_url_size", u!"MaxUrlSize"], SizePanics U p⟩,
   ⟨3, [u!"max_header_line_size", u!"MaxHeaderLineSize"], SizePanics U p⟩, ⟨5, [u!"max_body_size", u!"MaxBodySize"], SizePanics U p⟩,
   ⟨7, [u!"websocket", u!"Websocket", u!"ws"], WebsocketPanics U p⟩]

variable (strict : Bool)

/-- An item of `appenders`: only one that writes a file has a size. -/
def AppenderPanics (v : Toml) : Prop :=
  ∃ w, Only [u!"File", u!"file"] v w ∧
    (strict = true → NoOther [[u!"level", u!"Level"], [u!"equal", u!"Equal"], [u!"daily", u!"Daily"], [u!"bufsize", u!"BufferSize"]] w) ∧
    StopsIn (fun x => ∃ a, AppenderSays U p false (.table [(u!"File", x)]) a) [⟨3, [u!"bufsize", u!"BufferSize"], SizePanics U p⟩] w

/-- `[logging]` -/
def LoggingPanics : Toml → Prop := StopsIn (fun v => ∃ c, LoggingSays U p strict v c)
  [⟨2, [u!"appenders", u!"Appender"], ListPanics (fun v => ∃ a, AppenderSays U p strict v a) (AppenderPanics U p strict)⟩]

/-- A service. -/
def ServicePanics : Toml → Prop := StopsIn (fun v => ∃ c, ServiceSays U p strict v c)
  [⟨3, [u!"log", u!"Log", u!"logging", u!"Logging"], LoggingPanics U p strict⟩, ⟨4, [u!"tcp", u!"Tcp"], TcpPanics U p⟩, ⟨5, [u!"http", u!"Http"], HttpPanics U p⟩]

/-- A file. -/
def FilePanics : Toml → Prop := StopsIn (fun v => ∃ c, FileSays U p strict v c)
  [⟨2, [u!"log", u!"Log", u!"logging", u!"Logging"], LoggingPanics U p strict⟩, ⟨5, [u!"tcp", u!"Tcp"], TcpPanics U p⟩, ⟨6, [u!"http", u!"Http"], HttpPanics U p⟩,
   ⟨9, [u!"services", u!"Services"], MapPanics (fun v => ∃ c, ServiceSays U p strict v c) (ServicePanics U p strict)⟩]

/-- A visible regular file found by a pattern of `include` that can be read and at which the reading panics. -/
def FoundPanics (g : GlobFile) : Prop :=
  ∃ path v name, g = .ok path true true (some v) ∧ LastComponent path name ∧ name.head? ≠ some 46 ∧ ServicePanics U p strict v

/-- The files found for the patterns, up to one at which the reading panics; those before it add these services. -/
def FoundStops (glob : Str → Option (List GlobFile)) (pats : List Str) (added : List (List (Str × ServiceConfig))) : Prop :=
  ∃ (pats1 : List Str) (pat : Str) (pats2 : List Str) (fss : List (List GlobFile)) (gs1 : List GlobFile) (g : GlobFile) (gs2 : List GlobFile),
    pats = pats1 ++ pat :: pats2 ∧ pats1.map glob = fss.map some ∧ glob pat = some (gs1 ++ g :: gs2) ∧
    FoundPanics U p strict g ∧ Each2 (FileAdds U p strict) (fss.flatten ++ gs1) added

end

end Httpd.Spec
