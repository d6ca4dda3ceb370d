import Verif.Model.Serve
import Verif.Model.Writer
/-!
# Model of the write side of a connection over TLS

With a certificate (src/main.rs:108-159) the stream below the `BufWriter` of src/serve.rs:29 is the writing half of a
`tokio_rustls::server::TlsStream` (src/main.rs:133-134). It does not pass bytes on but records: `write` encrypts what it is given and tries to
hand the records to TCP, and may return while some of them are still waiting; `flush` hands over all that wait. Dropping the stream at the
end of the task (src/main.rs:134) sends nothing.

Neither crate is in /repo. The definitions follow tokio-rustls 0.26, src/common/mod.rs (`poll_write`, `poll_flush`), and rustls 0.23
(`send_appdata_encrypt`, records of at most 2^14 bytes, at most 64 KiB waiting before `write` takes nothing); they are part of what is trusted.
As in Model/Writer a call that is not ready and is polled again later is one call here.

Simplifications: numbers of records start at 0 after the handshake; keys are not changed in between (TLS does so after very many records); the
reading half writes nothing (rustls sends an alert when a record of the client cannot be decrypted, and the connection then ends).
-/

namespace Httpd

/-- What a record says. -/
inductive TlsRecord
  | data (b : Bytes)
  /-- the alert with which a side says that nothing will follow (RFC 8446 section 6.1) -/
  | closeNotify
deriving DecidableEq, Repr

/-- Encryption: the bytes of the record with this number. A record tells its length, so none is the beginning of another one; different contents give
different records. -/
structure RecordLayer where
  crypt : Nat → TlsRecord → Bytes
  nonempty : ∀ k r, crypt k r ≠ []
  delimited : ∀ k r r', crypt k r <+: crypt k r' → r = r'

/-- What TCP does with one attempt to hand it bytes: it takes up to `n + 1`, at once or only after some waiting; it fails; it never takes anything again. -/
inductive TcpRes
  | takes (now : Bool) (n : Nat)
  | fails
  | stalls
deriving DecidableEq, Repr

/-- The longest content of a record (rustls: `MAX_FRAGMENT_LEN`). -/
def maxFragment : Nat := 16384

/-- How many bytes may wait before `write` takes nothing (rustls: `DEFAULT_BUFFER_LIMIT`). -/
def tlsLimit : Nat := 65536

/-- The TLS stream below the `BufWriter`, after the handshake. -/
structure TlsSock where
  layer : RecordLayer
  /-- what TCP does with each attempt, in order -/
  plan : Nat → TcpRes
  attempts : Nat
  /-- the records made so far -/
  recs : List TlsRecord
  /-- the bytes of records that wait for TCP -/
  queue : Bytes
  /-- everything TCP has taken -/
  wire : Bytes

/-- After the handshake. -/
def TlsSock.new (layer : RecordLayer) (plan : Nat → TcpRes) : TlsSock := ⟨layer, plan, 0, [], [], []⟩

/-- rustls: make one record. -/
def TlsSock.sealOne (t : TlsSock) (r : TlsRecord) : TlsSock :=
  { t with recs := t.recs ++ [r], queue := t.queue ++ t.layer.crypt t.recs.length r }

/-- rustls `send_appdata_encrypt`: records of at most `maxFragment` bytes. -/
def TlsSock.encrypt : Nat → TlsSock → Bytes → TlsSock
  | 0, t, _ => t
  | fuel + 1, t, b =>
    if b = [] then t else TlsSock.encrypt fuel (t.sealOne (.data (b.take maxFragment))) (b.drop maxFragment)

/-- TCP has taken bytes. -/
def TlsSock.taken (t : TlsSock) (n : Nat) : TlsSock :=
  { t with attempts := t.attempts + 1, queue := t.queue.drop n, wire := t.wire ++ t.queue.take n }

/-- How handing over records ended. -/
inductive TlsPush
  | done
  | blocked
  | failed
deriving DecidableEq, Repr

/-- tokio-rustls `poll_write`, the inner loop: hand over records as long as TCP takes some at once. -/
def TlsSock.push : Nat → TlsSock → TlsSock × TlsPush
  | 0, t => (t, .done)
  | fuel + 1, t =>
    if t.queue = [] then (t, .done)
    else
      match t.plan t.attempts with
      | .takes true n => TlsSock.push fuel (t.taken (n + 1))
      | .fails => ({ t with attempts := t.attempts + 1 }, .failed)
      | _ => ({ t with attempts := t.attempts + 1 }, .blocked)

/-- Hand over bytes, waiting until TCP takes some. -/
def TlsSock.wait (t : TlsSock) : TlsSock × Option Reader.IoStop :=
  match t.plan t.attempts with
  | .takes _ n => (t.taken (n + 1), none)
  | .fails => ({ t with attempts := t.attempts + 1 }, some .error)
  | .stalls => ({ t with attempts := t.attempts + 1 }, some .wait)

/-- tokio-rustls `poll_write`: encrypt as much of `rest` as may wait, hand over records; return when TCP takes no more at once and something was
encrypted, otherwise wait. -/
def TlsSock.writeLoop : Nat → TlsSock → Bytes → Nat → TlsSock × Except Reader.IoStop Nat
  | 0, t, _, pos => (t, .ok pos)
  | fuel + 1, t, rest, pos =>
    if rest = [] then (t, .ok pos)
    else
      let n := min rest.length (tlsLimit - t.queue.length)
      let t1 := t.encrypt n (rest.take n)
      match t1.push t1.queue.length with
      | (t2, .failed) => (t2, .error .error)
      | (t2, .done) => TlsSock.writeLoop fuel t2 (rest.drop n) (pos + n)
      | (t2, .blocked) =>
        if 0 < pos + n then (t2, .ok (pos + n))
        else
          match t2.wait with
          | (t3, some e) => (t3, .error e)
          | (t3, none) =>
            match t3.push t3.queue.length with
            | (t4, .failed) => (t4, .error .error)
            | (t4, _) => TlsSock.writeLoop fuel t4 rest pos

/-- One `poll_write` of the TLS stream. Every turn of the loop makes what waits or what is left shorter. -/
def TlsSock.write (t : TlsSock) (src : Bytes) : TlsSock × Except Reader.IoStop Nat :=
  t.writeLoop (t.queue.length + src.length + 1) src 0

/-- tokio-rustls `poll_flush`: hand over all records that wait. -/
def TlsSock.flush : Nat → TlsSock → TlsSock × Option Reader.IoStop
  | 0, t => (t, none)
  | fuel + 1, t =>
    if t.queue = [] then (t, none)
    else
      match t.wait with
      | (t1, some e) => (t1, some e)
      | (t1, none) => TlsSock.flush fuel t1

/-- `tokio::io::BufWriter` over it, as in Model/Writer. -/
structure TlsConn where
  cap : Nat
  buf : Bytes
  tls : TlsSock

/-- `BufWriter::flush_buf` -/
def TlsConn.flushBuf : Nat → TlsConn → TlsConn × Option Reader.IoStop
  | 0, w => (w, none)
  | fuel + 1, w =>
    if w.buf = [] then (w, none)
    else
      match w.tls.write w.buf with
      | (s, .ok 0) => ({ w with tls := s }, some .error)
      | (s, .ok (n + 1)) => TlsConn.flushBuf fuel { w with tls := s, buf := w.buf.drop (n + 1) }
      | (s, .error e) => ({ w with tls := s }, some e)

/-- `BufWriter::poll_write`, once there is room -/
def TlsConn.put (w : TlsConn) (src : Bytes) : TlsConn × Except Reader.IoStop Nat :=
  if w.cap ≤ src.length then
    match w.tls.write src with
    | (s, res) => ({ w with tls := s }, res)
  else ({ w with buf := w.buf ++ src }, .ok src.length)

/-- `BufWriter::poll_write` -/
def TlsConn.write (w : TlsConn) (src : Bytes) : TlsConn × Except Reader.IoStop Nat :=
  if w.cap < w.buf.length + src.length then
    match TlsConn.flushBuf w.buf.length w with
    | (w1, some e) => (w1, .error e)
    | (w1, none) => w1.put src
  else w.put src

/-- `write_all` -/
def TlsConn.writeAll : Nat → TlsConn → Bytes → TlsConn × Option Reader.IoStop
  | 0, w, _ => (w, none)
  | fuel + 1, w, src =>
    if src = [] then (w, none)
    else
      match w.write src with
      | (w1, .ok 0) => (w1, some .error)
      | (w1, .ok (n + 1)) => TlsConn.writeAll fuel w1 (src.drop (n + 1))
      | (w1, .error e) => (w1, some e)

/-- `BufWriter::poll_flush` -/
def TlsConn.flush (w : TlsConn) : TlsConn × Option Reader.IoStop :=
  match TlsConn.flushBuf w.buf.length w with
  | (w1, some e) => (w1, some e)
  | (w1, none) =>
    match w1.tls.flush w1.tls.queue.length with
    | (s, res) => ({ w1 with tls := s }, res)

/-- src/message.rs:542-547, the sending half of `write_to`. -/
def TlsConn.send (w : TlsConn) (head body : Bytes) : TlsConn × Option Reader.IoStop :=
  match TlsConn.writeAll head.length w head with
  | (w1, some e) => (w1, some e)
  | (w1, none) =>
    if 0 < body.length then
      match TlsConn.writeAll body.length w1 body with
      | (w2, some e) => (w2, some e)
      | (w2, none) => w2.flush
    else w1.flush

/-- src/message.rs:511-549 `write_to`, as `writeTo` of Model/Writer. -/
def writeToTls {K : Type} (c : Codec K) (ord : List Pair → List Pair) (m : Message K) (w : TlsConn) :
    Message K × TlsConn × Option Reader.IoStop :=
  match m.body.finish c with
  | (b, false) => ({ m with body := b }, w, some .error)
  | (b, true) =>
    let hs := m.head.headers.set b!"content-length" (natToBytes b.size)
    let h := { m.head with headers := hs }
    let body := match b.internal with | some buf => buf | none => []
    match w.send (responseHead h.f0 h.f1 h.f2 (hs.entries ord)) body with
    | (w1, res) => ({ head := h, body := b }, w1, res)

/-- src/serve.rs:35-90: the loop of `serveLoop`, with the writer in the place of `Env.write` (which is not looked at). -/
def serveLoopTls {K : Type} (c : Codec K) (lim : HttpLimits) (env : Nat → Env K) :
    Nat → Nat → Message K → Message K → Reader → TlsConn → List (Message K) × TlsConn × Ending
  | 0, _, _, _, _, w => ([], w, .outOfFuel)
  | fuel + 1, i, req, resp, r, w =>
    match readHead lim req.head r with
    | .error e => ([], w, headEnding e)
    | .ok (head, r1) =>
      match readConstLengthBody (env i).cap head.headers req.body r1 with
      | .fail e => ([], w, bodyEnding e)
      | .panic => ([], w, .panic)
      | .hang => ([], w, .hang)
      | .done body r2 =>
        let req1 : Message K := { head := head, body := body }
        match (env i).http req1 resp with
        | .err => ([req1], w, .handlerErr)
        | .panic => ([req1], w, .panic)
        | .ok p req2 resp2 =>
          match writeToTls c (env i).ord resp2 w with
          | (_, w1, some e) => ([req1], w1, writeEnding e)
          | (resp3, w1, none) =>
            match p with
            | .current true =>
              match serveLoopTls c lim env fuel (i + 1) (req2.clear c) (resp3.clear c) r2 w1 with
              | (rest, w2, e) => (req1 :: rest, w2, e)
            | .current false => ([req1], w1, .closed)
            | .webSocket => ([req1], w1, .webSocket)
            | .http2 => ([req1], w1, .http2)

/-- src/main.rs:133-134, src/serve.rs:12-96: a connection over TLS after the handshake; the reader gives the decrypted bytes. What it leaves behind is what is on the wire in the
end: nothing is sent when the stream is dropped. -/
def serveTls {K : Type} (c : Codec K) (lim : HttpLimits) (env : Nat → Env K) (r : Reader) (cap : Nat) (layer : RecordLayer) (plan : Nat → TcpRes) :
    List (Message K) × TlsConn × Ending :=
  serveLoopTls c lim env (r.flat.length + 1) 0 Message.new Message.new r { cap := cap, buf := [], tls := TlsSock.new layer plan }

end Httpd
