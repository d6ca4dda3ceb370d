import Verif.Model.Services
import Verif.Model.Logging
/-!
# Model of the log records of a connection (src/serve.rs, src/services/helloworld.rs)

The loop of src/serve.rs again, this time for the records it writes. The texts of an error (`{}` of an `io::Error` or of an
`anyhow::Error`) and of the peer's address are parameters. Records are listed in the order of the calls, whatever the maximum level
lets through; what becomes of a record afterwards is in `Model/Logging`, `Model/Dispatcher`.
-/

namespace Httpd

/-- One call of a macro of the crate `log`: level, key/values, message. -/
structure Rec where
  level : Level
  kvs : List (Bytes × KvValue)
  msg : Bytes
deriving DecidableEq

/-- `{:?}` of `Result<(u8, u8), ()>`. -/
def versionDebug : Option (Nat × Nat) → Bytes
  | some (major, minor) => b!"Ok((" ++ natToBytes major ++ b!", " ++ natToBytes minor ++ b!"))"
  | none => b!"Err(())"

/-- src/services/helloworld.rs:38-63: the records of a request. `idx` is the number of the service, `ord` the iteration order of the
request's header table. -/
def helloLog {K : Type} (idx : Nat) (addr : Bytes) (ord : List Pair → List Pair) (req : Message K) : List Rec :=
  let service := [(b!"service", KvValue.ofNat idx)]
  [⟨.trace, service, b!"Request From " ++ addr⟩,
   ⟨.trace, [], req.head.f0 ++ b!" " ++ req.head.f1 ++ b!" " ++ versionDebug (reqVersion req.head.f2)⟩] ++
  req.head.headers.each ord (fun acc k vs => (acc ++ vs.map (fun v => ⟨.trace, service, k ++ b!": " ++ v⟩), true)) [] ++
  (if req.body.size = 0 then [⟨.trace, [], b!"EmptyBody"⟩]
   else
    match req.body.internal with
    | none => []
    | some buf =>
      match decodeUtf8 buf with
      | some _ => [⟨.trace, service, b!"PrintableBody:\r\n---------------------\r\n" ++ buf ++ b!"\r\n---------------------"⟩]
      | none => [⟨.trace, service, b!"BinaryBody: " ++ natToBytes req.body.size⟩])

/-- `{:?}` of a `MessageReadCode` (src/message.rs:143-152, `derive(Debug)`); `waiting` is not one of its values. -/
def ReadCode.debug : ReadCode → Bytes
  | .ok => b!"Ok"
  | .connReadError => b!"ConnReadError"
  | .badDatagram => b!"BadDatagram"
  | .reachMaxBodySize => b!"ReachMaxBodySize"
  | .badContentLength => b!"BadContentLength"
  | .reachMaxHeadersCount => b!"ReachMaxHeadersCount"
  | .badChunkSize => b!"BadChunkSize"
  | .waiting => []

/-- What the records of a connection depend on besides the requests. -/
structure LogEnv (K : Type) where
  /-- built with `debug_assertions` -/
  debug : Bool
  addr : Bytes
  /-- the name of the service, as serde_json writes it -/
  name : Bytes
  /-- the records of the service for the i-th request -/
  service : Nat → Message K → List Rec
  /-- the text of the error of the i-th response -/
  sendError : Nat → Bytes
  /-- the text of the error of the service at the i-th request -/
  handleError : Nat → Bytes

/-- src/serve.rs:82-89: the record about a head that was not read. -/
def headLog (debug : Bool) : ReadCode → List Rec
  | .connReadError => []
  | .waiting => []
  | e => if debug then [⟨.trace, [], b!"read request header failed, " ++ e.debug⟩] else []

/-- src/serve.rs:68-78: the record about a body that was not read. -/
def bodyLog (debug : Bool) : ReadCode → List Rec
  | .connReadError => []
  | .waiting => []
  | e => if debug then [⟨.trace, [], b!"read request body failed, " ++ e.debug⟩] else []

/-- src/serve.rs:91-95: the last record, when the loop was left by `break`. -/
def lostLog {K : Type} (l : LogEnv K) : List Rec :=
  if l.debug then [⟨.trace, [(b!"service", .ofString l.name)], b!"connection lost, " ++ l.addr⟩] else []

/-- src/serve.rs:22-25: the first record. -/
def madeLog {K : Type} (l : LogEnv K) : List Rec :=
  if l.debug then [⟨.trace, [(b!"service", .ofString l.name)], b!"connection made, " ++ l.addr⟩] else []

/-- src/serve.rs:35-95: the records of the loop and after it; the same case distinctions as `serveLoop`. -/
def serveLogLoop {K : Type} (c : Codec K) (lim : HttpLimits) (env : Nat → Env K) (l : LogEnv K) :
    Nat → Nat → Message K → Message K → Reader → List Rec
  | 0, _, _, _, _ => []
  | fuel + 1, i, req, resp, r =>
    match readHead lim req.head r with
    | .error .waiting => []
    | .error e => headLog l.debug e ++ lostLog l
    | .ok (head, r1) =>
      match readConstLengthBody (env i).cap head.headers req.body r1 with
      | .fail .waiting => []
      | .fail e => bodyLog l.debug e ++ lostLog l
      | .panic => []
      | .hang => []
      | .done body r2 =>
        let req1 : Message K := { head := head, body := body }
        l.service i req1 ++
        match (env i).http req1 resp with
        | .err => [⟨.error, [(b!"service", .ofString l.name)], b!"handle failed, " ++ l.handleError i⟩] ++ lostLog l
        | .panic => []
        | .ok p req2 resp2 =>
          match encodeResponse c (env i).ord resp2 with
          | (_, none) => [⟨.debug, [], b!"send response failed, " ++ l.sendError i⟩] ++ lostLog l
          | (resp3, some _) =>
            match (env i).write with
            | .failAfter _ .error => [⟨.debug, [], b!"send response failed, " ++ l.sendError i⟩] ++ lostLog l
            | .failAfter _ .wait => []
            | .ok =>
              match p with
              | .current true => serveLogLoop c lim env l fuel (i + 1) (req2.clear c) (resp3.clear c) r2
              | .current false => lostLog l
              | .webSocket => []
              | .http2 => []

/-- src/serve.rs:12-96 `serve`: the records of a connection, in order. -/
def serveLog {K : Type} (c : Codec K) (lim : HttpLimits) (env : Nat → Env K) (l : LogEnv K) (r : Reader) : List Rec :=
  madeLog l ++ serveLogLoop c lim env l (r.flat.length + 1) 0 Message.new Message.new r

/-- src/logging/item.rs:74-93: the record as the consumer gets it. -/
def Rec.item (time file : Bytes) (line : Nat) (r : Rec) : Item := Item.from time r.level (some file) (some line) r.msg r.kvs

/-! ## Records and answers, in the order in which they come -/

/-- What a connection does that can be seen outside: it logs a record, or sends bytes to the client. -/
inductive ConnAct
  | log (r : Rec)
  | answer (b : Bytes)
deriving DecidableEq

/-- src/serve.rs:35-95 once more, with records and answers; the same case distinctions as `serveLoop` and `serveLogLoop`. A service logs
before its response is written (src/services/helloworld.rs:38-63 and src/serve.rs:39-40). -/
def serveActsLoop {K : Type} (c : Codec K) (lim : HttpLimits) (env : Nat → Env K) (l : LogEnv K) :
    Nat → Nat → Message K → Message K → Reader → List ConnAct
  | 0, _, _, _, _ => []
  | fuel + 1, i, req, resp, r =>
    match readHead lim req.head r with
    | .error .waiting => []
    | .error e => (headLog l.debug e ++ lostLog l).map .log
    | .ok (head, r1) =>
      match readConstLengthBody (env i).cap head.headers req.body r1 with
      | .fail .waiting => []
      | .fail e => (bodyLog l.debug e ++ lostLog l).map .log
      | .panic => []
      | .hang => []
      | .done body r2 =>
        let req1 : Message K := { head := head, body := body }
        (l.service i req1).map .log ++
        match (env i).http req1 resp with
        | .err => (⟨.error, [(b!"service", .ofString l.name)], b!"handle failed, " ++ l.handleError i⟩ :: lostLog l).map .log
        | .panic => []
        | .ok p req2 resp2 =>
          match encodeResponse c (env i).ord resp2 with
          | (_, none) => (⟨.debug, [], b!"send response failed, " ++ l.sendError i⟩ :: lostLog l).map .log
          | (resp3, some bytes) =>
            match (env i).write with
            | .failAfter k .error =>
              .answer (bytes.take k) :: (⟨.debug, [], b!"send response failed, " ++ l.sendError i⟩ :: lostLog l).map .log
            | .failAfter k .wait => [.answer (bytes.take k)]
            | .ok =>
              .answer bytes ::
              match p with
              | .current true => serveActsLoop c lim env l fuel (i + 1) (req2.clear c) (resp3.clear c) r2
              | .current false => (lostLog l).map .log
              | .webSocket => []
              | .http2 => []

/-- src/serve.rs:12-96 `serve`. -/
def serveActs {K : Type} (c : Codec K) (lim : HttpLimits) (env : Nat → Env K) (l : LogEnv K) (r : Reader) : List ConnAct :=
  (madeLog l).map .log ++ serveActsLoop c lim env l (r.flat.length + 1) 0 Message.new Message.new r

end Httpd
