import Verif.Model.Serve
/-!
# Model of the write side of a connection

`serve` (src/serve.rs:29) wraps the writing half of the connection in a `tokio::io::BufWriter` of `read_stream_buf_size` bytes,
and `Message::write_to` (src/message.rs:511-549) sends a response through it: `write_all` of the head, `write_all` of the body
if there is one, `flush`. Model/Serve.lean replaces all of that by one `WriteOutcome`; here it is spelled out, down to the
single calls of the operating system's (or the TLS layer's) write function.

Tokio's source is not in /repo. The definitions follow tokio 1.x, tokio/src/io/util/buf_writer.rs (`flush_buf`, `poll_write`,
`poll_flush`) and tokio/src/io/util/write_all.rs; they are part of what is trusted. A call that is not ready and is polled
again later is one call here. When the code stops inside `flush_buf` tokio keeps the sent part of the buffer and an index; here
the sent part is dropped at once, which only a later call could see.
-/

namespace Httpd

/-- What the stream below does with one call of `poll_write` or `poll_flush`. -/
inductive SockRes
  /-- it takes up to `n` bytes (for a flush: it succeeds) -/
  | takes (n : Nat)
  /-- it fails -/
  | fails
  /-- it is never ready again: the peer does not read any more -/
  | stalls
deriving DecidableEq, Repr

/-- The stream below the `BufWriter`. -/
structure Sock where
  /-- what it does with each call, in order -/
  plan : Nat → SockRes
  /-- the slices it was offered so far -/
  offered : List Bytes
  /-- number of calls so far -/
  calls : Nat
  /-- everything it has taken so far -/
  taken : Bytes

/-- A connection on which nothing has been written. -/
def Sock.new (plan : Nat → SockRes) : Sock := { plan := plan, offered := [], calls := 0, taken := [] }

/-- One `poll_write` of the stream below: how many bytes of `src` it took. -/
def Sock.write (s : Sock) (src : Bytes) : Sock × Except Reader.IoStop Nat :=
  let s1 := { s with calls := s.calls + 1, offered := s.offered ++ [src] }
  match s.plan s.calls with
  | .takes n => ({ s1 with taken := s.taken ++ src.take n }, .ok (min n src.length))
  | .fails => (s1, .error .error)
  | .stalls => (s1, .error .wait)

/-- One `poll_flush` of the stream below. -/
def Sock.flush (s : Sock) : Sock × Option Reader.IoStop :=
  let s1 := { s with calls := s.calls + 1 }
  match s.plan s.calls with
  | .takes _ => (s1, none)
  | .fails => (s1, some .error)
  | .stalls => (s1, some .wait)

/-- `tokio::io::BufWriter`. -/
structure ConnW where
  cap : Nat
  buf : Bytes
  sock : Sock

/-- `BufWriter::flush_buf`: write the buffer to the stream below until it is empty; taking nothing is an error (`WriteZero`).
`none` = success. Each call that goes on takes at least one byte, so the length of the buffer bounds the number of calls. -/
def ConnW.flushBuf : Nat → ConnW → ConnW × Option Reader.IoStop
  | 0, w => (w, none)
  | fuel + 1, w =>
    if w.buf = [] then (w, none)
    else
      match w.sock.write w.buf with
      | (s, .ok 0) => ({ w with sock := s }, some .error)
      | (s, .ok (n + 1)) => ConnW.flushBuf fuel { w with sock := s, buf := w.buf.drop (n + 1) }
      | (s, .error e) => ({ w with sock := s }, some e)

/-- `BufWriter::poll_write`: empty the buffer if `src` does not fit beside it; then a `src` as long as the buffer goes to the
stream below directly, a shorter one into the buffer. -/
def ConnW.write (w : ConnW) (src : Bytes) : ConnW × Except Reader.IoStop Nat :=
  let go (w : ConnW) : ConnW × Except Reader.IoStop Nat :=
    if w.cap ≤ src.length then
      match w.sock.write src with
      | (s, res) => ({ w with sock := s }, res)
    else ({ w with buf := w.buf ++ src }, .ok src.length)
  if w.cap < w.buf.length + src.length then
    match ConnW.flushBuf w.buf.length w with
    | (w1, some e) => (w1, .error e)
    | (w1, none) => go w1
  else go w

/-- `write_all`: write what is left until nothing is left; taking nothing is an error (`WriteZero`). -/
def ConnW.writeAll : Nat → ConnW → Bytes → ConnW × Option Reader.IoStop
  | 0, w, _ => (w, none)
  | fuel + 1, w, src =>
    if src = [] then (w, none)
    else
      match w.write src with
      | (w1, .ok 0) => (w1, some .error)
      | (w1, .ok (n + 1)) => ConnW.writeAll fuel w1 (src.drop (n + 1))
      | (w1, .error e) => (w1, some e)

/-- `BufWriter::poll_flush`: empty the buffer, then flush the stream below. -/
def ConnW.flush (w : ConnW) : ConnW × Option Reader.IoStop :=
  match ConnW.flushBuf w.buf.length w with
  | (w1, some e) => (w1, some e)
  | (w1, none) =>
    match w1.sock.flush with
    | (s, res) => ({ w1 with sock := s }, res)

/-- src/message.rs:542-547, the sending half of `write_to`: the head (`ctx.buf`), the body if it is not empty, flush; `?` after
each. -/
def ConnW.send (w : ConnW) (head body : Bytes) : ConnW × Option Reader.IoStop :=
  match ConnW.writeAll head.length w head with
  | (w1, some e) => (w1, some e)
  | (w1, none) =>
    if 0 < body.length then
      match ConnW.writeAll body.length w1 body with
      | (w2, some e) => (w2, some e)
      | (w2, none) => w2.flush
    else w1.flush

/-- The head of a response as `write_to` collects it in `ctx.buf` (src/message.rs:515-540): `responseBytes` without the body. -/
def responseHead (f0 f1 f2 : Bytes) (ps : List Pair) : Bytes :=
  f0 ++ [32] ++ f1 ++ [32] ++ f2 ++ crlf ++ headerLines ps ++ crlf

/-- src/message.rs:511-549 `write_to` in full: finish the body (failure = error, nothing sent), set content-length, collect the
head, send. Returns the message afterwards, the writer afterwards, and `none` for success. -/
def writeTo {K : Type} (c : Codec K) (ord : List Pair → List Pair) (m : Message K) (w : ConnW) :
    Message K × ConnW × Option Reader.IoStop :=
  match m.body.finish c with
  | (b, false) => ({ m with body := b }, w, some .error)
  | (b, true) =>
    let hs := m.head.headers.set b!"content-length" (natToBytes b.size)
    let h := { m.head with headers := hs }
    let body := match b.internal with | some buf => buf | none => []
    match w.send (responseHead h.f0 h.f1 h.f2 (hs.entries ord)) body with
    | (w1, res) => ({ head := h, body := b }, w1, res)

/-- src/serve.rs:35-90: the loop of `serveLoop`, with the writer in the place of `Env.write` (which is not looked at). Returns
the requests delivered, the writer, and why it ended. -/
def serveLoopW {K : Type} (c : Codec K) (lim : HttpLimits) (env : Nat → Env K) :
    Nat → Nat → Message K → Message K → Reader → ConnW → List (Message K) × ConnW × Ending
  | 0, _, _, _, _, w => ([], w, .outOfFuel)
  | fuel + 1, i, req, resp, r, w =>
    match readHead lim req.head r with
    | .error e => ([], w, headEnding e)
    | .ok (head, r1) =>
      match readConstLengthBody (env i).cap head.headers req.body r1 with
      | .fail e => ([], w, bodyEnding e)
      | .panic => ([], w, .panic)
      | .hang => ([], w, .hang)
      | .done body r2 =>
        let req1 : Message K := { head := head, body := body }
        match (env i).http req1 resp with
        | .err => ([req1], w, .handlerErr)
        | .panic => ([req1], w, .panic)
        | .ok p req2 resp2 =>
          match writeTo c (env i).ord resp2 w with
          | (_, w1, some e) => ([req1], w1, writeEnding e)
          | (resp3, w1, none) =>
            match p with
            | .current true =>
              match serveLoopW c lim env fuel (i + 1) (req2.clear c) (resp3.clear c) r2 w1 with
              | (rest, w2, e) => (req1 :: rest, w2, e)
            | .current false => ([req1], w1, .closed)
            | .webSocket => ([req1], w1, .webSocket)
            | .http2 => ([req1], w1, .http2)

/-- src/serve.rs:12-96 `serve` on a fresh connection: an empty buffer of `cap` bytes over a stream that behaves as `plan`. -/
def serveW {K : Type} (c : Codec K) (lim : HttpLimits) (env : Nat → Env K) (r : Reader) (cap : Nat) (plan : Nat → SockRes) :
    List (Message K) × ConnW × Ending :=
  serveLoopW c lim env (r.flat.length + 1) 0 Message.new Message.new r { cap := cap, buf := [], sock := Sock.new plan }

end Httpd
