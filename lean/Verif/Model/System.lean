import Verif.Model.Main
import Verif.Model.Logging
import Verif.Model.Services
import Verif.Model.Writer
/-!
# Model of the whole server: from a loaded configuration to the bytes on every connection

Puts together src/main.rs:168-192 (`run` for one service), Model/Main.lean (accepting), Model/Services.lean (the services) and
Model/Writer.lean (one connection). Connections share nothing that changes: `serve` gets an `Arc` of a service whose methods take
`&self` and which holds only a `&'static ServiceConfig` (src/services/helloworld.rs:10, src/services/fs.rs:7-9), so each of them
is a function of the configuration and of its own client. What they write to the log is Model/ConnLog.lean.
-/

namespace Httpd

/-- The settings of src/config/http.rs that src/message.rs reads (lines 338, 344, 360, 372-373, 397). -/
def HttpConfig.limits (c : HttpConfig) : HttpLimits :=
  { maxUrl := c.maxUrl, maxHeaderLine := c.maxLine, maxHeadersCount := c.maxHeaders, maxBody := c.maxBody }

/-- The variant of a `config::service::Service`, which src/main.rs:178 looks at. -/
def ServiceSetting.kind : ServiceSetting → ServiceKind
  | .helloWorld => .helloWorld
  | .fileSystem _ => .fileSystem
  | .forward => .forward
  | .upstream => .upstream

/-- The `http` method of the service that src/main.rs:178-189 makes. The last two are `todo!()`: no connection is served. -/
def ServiceKind.http {K : Type} : ServiceKind → Message K → Message K → HandlerRes K
  | .helloWorld => helloHttp
  | .fileSystem => fsHttp
  | .forward => fun _ _ => .panic
  | .upstream => fun _ _ => .panic

/-- Everything outside the program that one service meets, by the number of the connection. -/
structure World (C K : Type) where
  /-- files, and the crates that load certificates -/
  tls : TlsEnv C
  /-- flate2 -/
  codec : Codec K
  /-- what a client sends -/
  client : Nat → Reader
  /-- what the stream to a client does with each write -/
  plan : Nat → Nat → SockRes
  /-- capacity (less one, see `Env.cap_pos`) of `ctx.buf` when the body of a request is read -/
  cap : Nat → Nat → Nat
  /-- iteration order of the header table of a response -/
  ord : Nat → Nat → List Pair → List Pair

/-- What happened on a connection: how it was served, the requests that reached the service, the bytes that the stream to the
client took, and how it ended. -/
structure Conn (K : Type) where
  served : Served
  requests : List (Message K)
  wire : Bytes
  ending : Ending

/-- src/serve.rs:12-96 for a connection of a service: limits and buffer size are those of its configuration (lines 27-30; the
writer has the size of `read_stream_buf_size`, line 29). Lines 28-29 and src/ctx.rs:28 allocate the buffers; a size above `isize::MAX` is
a panic. Smaller ones are taken to succeed. -/
def ServiceConfig.connection {C K : Type} (x : World C K) (s : ServiceConfig) (v : Served) : Conn K :=
  if isizeMax < s.tcp.readBuf ∨ isizeMax < s.tcp.buf then { served := v, requests := [], wire := [], ending := .panic }
  else
    match serveW x.codec s.http.limits
        (fun j =>
          { http := s.service.kind.http, cap := x.cap v.id j + 1, cap_pos := Nat.le_add_left 1 _, write := .ok, ord := x.ord v.id j })
        (x.client v.id) s.tcp.readBuf (x.plan v.id) with
    | (reqs, w, e) => { served := v, requests := reqs, wire := w.sock.taken, ending := e }

/-- src/main.rs:168-192 `run`, with what happens on the connections. `bindOk` is the result of `TcpListener::bind`; `init` of both
services is `Ok` (src/services/helloworld.rs:23-25, src/services/fs.rs:22-24). -/
def ServiceConfig.run {C K : Type} (x : World C K) (bindOk : Bool) (es : List AcceptEvent) (s : ServiceConfig) :
    List (Conn K) × RunEnd :=
  match runService x.tls s.tcp.tls.cert s.tcp.tls.key s.tcp.tls.timeout s.service.kind bindOk true es with
  | (served, e) => (served.map (s.connection x), e)

end Httpd
