import Verif.Model.TlsWriter
/-!
# Model of the read side of a connection over TLS

With a certificate the stream below the `BufReader` of src/serve.rs:29 is the reading half of a `tokio_rustls::server::TlsStream`
(src/main.rs:133-134). A read that finds no plaintext waiting reads from TCP, hands the bytes to rustls, which opens all the records that are
there in whole, and does so again until there is plaintext; then it returns a part of the first piece.

Neither crate is in /repo. The definitions follow tokio-rustls 0.26, src/common/mod.rs (`read_io`, `poll_fill_buf`, `poll_read`) and
src/server.rs (`poll_read`), and rustls 0.23 (`process_new_packets`, `Reader::read`); they are part of what is trusted.

Simplifications: numbers of records start at 0 after the handshake; records other than data and `close_notify` do not come (an alert other than
`close_notify` ends the connection like a record that cannot be opened); what the reading half sends (an alert before the connection ends) is left out.
-/

namespace Httpd

/-- What rustls makes of the bytes that wait, when the record with a certain number is due: the record is not there in whole; it is no record or was not made by the
client for this place; it is a record, and further bytes follow. -/
inductive TlsOpening
  | more
  | bad
  | record (r : TlsRecord) (rest : Bytes)
deriving DecidableEq, Repr

/-- rustls, with the keys of a connection, on the bytes of the client. -/
structure TlsOpener where
  next : Nat → Bytes → TlsOpening

/-- What came out of the bytes of one read from TCP. -/
inductive TlsGot
  | bad
  /-- `close_notify`, after these pieces of plaintext; what follows it is ignored -/
  | closed (chunks : List Bytes)
  /-- these pieces of plaintext; the record with this number is due and so much of it is there -/
  | ready (k : Nat) (pend : Bytes) (chunks : List Bytes)
deriving DecidableEq, Repr

/-- rustls `process_new_packets`: open the records that are there. If one of them cannot be opened this is an error, whatever came before it.
Every round uses up at least one byte, so `fuel` is the number of bytes. -/
def TlsOpener.process (o : TlsOpener) : Nat → Nat → Bytes → TlsGot
  | 0, k, b => .ready k b []
  | fuel + 1, k, b =>
    if b = [] then .ready k b []
    else
      match o.next k b with
      | .more => .ready k b []
      | .bad => .bad
      | .record .closeNotify _ => .closed []
      | .record (.data d) rest =>
        match o.process fuel (k + 1) rest with
        | .bad => .bad
        | .closed cs => .closed (d :: cs)
        | .ready k' b' cs => .ready k' b' (d :: cs)

/-- tokio-rustls `poll_read` into a buffer of `cap` bytes, until this piece of plaintext is used up. (A piece without bytes is not kept.) -/
def cutChunk (cap : Nat) : Nat → Bytes → List Seg
  | 0, _ => []
  | _ + 1, [] => []
  | fuel + 1, b :: bs => ⟨b, bs.take (cap - 1)⟩ :: cutChunk cap fuel (bs.drop (cap - 1))

/-- The same for several pieces. -/
def cutChunks (cap : Nat) (cs : List Bytes) : List Seg := (cs.map fun d => cutChunk cap d.length d).flatten

/-- What the end of the TCP stream is for the reader if no `close_notify` came: tokio-rustls makes `UnexpectedEof` of it. -/
def brokenOff : StreamEnd → StreamEnd
  | .eof => .err
  | .err => .err
  | .silent => .silent

/-- tokio-rustls `poll_fill_buf`: what the reads on the TLS stream return one after the other, and how they end. `segs` and `fin` is what TCP gives; rustls reads from it
only when no plaintext is waiting. An error is returned at once, also if plaintext of the same read waits; after `close_notify` the reads return 0 bytes. -/
def TlsOpener.reads (o : TlsOpener) (cap : Nat) (fin : StreamEnd) : Nat → Bytes → List Seg → List Seg × StreamEnd
  | _, _, [] => ([], brokenOff fin)
  | k, pend, s :: segs =>
    match o.process (pend ++ s.bytes).length k (pend ++ s.bytes) with
    | .bad => ([], .err)
    | .closed cs => (cutChunks cap cs, .eof)
    | .ready k' pend' cs =>
      match o.reads cap fin k' pend' segs with
      | (more, e) => (cutChunks cap cs ++ more, e)

/-- The reader of src/serve.rs:29 over TLS, after the handshake. -/
def tlsReader (o : TlsOpener) (cap : Nat) (segs : List Seg) (fin : StreamEnd) : Reader :=
  { buf := [], segs := (o.reads cap fin 0 [] segs).1, fin := (o.reads cap fin 0 [] segs).2 }

end Httpd
