import Verif.Model.Message
/-!
# Model of src/serve.rs

The connection loop. The service is an arbitrary function of the request and response messages, possibly different at each
request (it may have state). It gets `&ConnContext`, whose reader it cannot use without `&mut`; that it could look at
`ctx.buf` is not modelled.
-/

namespace Httpd

/-- src/protocols.rs. -/
inductive Protocol
  | current (keepAlive : Bool)
  | webSocket
  | http2
deriving DecidableEq, Repr

/-- Outcome of `service.http(&ctx, &mut req, &mut resp)`. -/
inductive HandlerRes (K : Type)
  | ok (p : Protocol) (req resp : Message K)
  | err
  | panic

/-- What happens when the bytes of a response are written and flushed. -/
inductive WriteOutcome
  | ok
  /-- after this many bytes reached the peer, an I/O error - or the peer reads no more and the write does not return -/
  | failAfter (k : Nat) (s : Reader.IoStop)
deriving DecidableEq, Repr

/-- Everything outside the program that influences one iteration of the loop. -/
structure Env (K : Type) where
  /-- the service -/
  http : Message K → Message K → HandlerRes K
  /-- capacity of the connection's buffer `ctx.buf` when the body is read -/
  cap : Nat
  /-- it is not zero: the last line of the head, at least two bytes, has just been read into that buffer
  (src/message.rs:433-436) -/
  cap_pos : 1 ≤ cap
  /-- outcome of writing the response -/
  write : WriteOutcome
  /-- iteration order of the response header table -/
  ord : List Pair → List Pair

/-- Why the loop ended. -/
inductive Ending
  | headFail (c : ReadCode)
  | bodyFail (c : ReadCode)
  /-- it has not ended: it waits for bytes the peer does not send -/
  | waiting
  | handlerErr
  | writeFail
  /-- it has not ended: it waits for the peer to take the rest of a response -/
  | stalled
  | closed
  | webSocket
  | http2
  /-- the task panicked -/
  | panic
  /-- the body loop never ends -/
  | hang
  /-- the model's bound on the number of requests was reached (never happens, `serveLoop_fuel`) -/
  | outOfFuel
deriving DecidableEq, Repr

/-- The end of the loop when `read_headers` returned a code other than `Ok`, or has not returned. -/
def headEnding : ReadCode → Ending
  | .waiting => .waiting
  | c => .headFail c

/-- The same for `read_const_length_body`. -/
def bodyEnding : ReadCode → Ending
  | .waiting => .waiting
  | c => .bodyFail c

/-- The same for a write. -/
def writeEnding : Reader.IoStop → Ending
  | .error => .writeFail
  | .wait => .stalled

/-- One delivered request and the bytes written in answer to it. -/
structure Exchange (K : Type) where
  req : Message K
  written : Bytes

/-- What the peer gets of a response. -/
def sent (w : WriteOutcome) (bytes : Bytes) : Bytes :=
  match w with
  | .ok => bytes
  | .failAfter k _ => bytes.take k

/-- src/serve.rs:35-90: the loop. `i` counts requests. The exchanges are listed in order. -/
def serveLoop {K : Type} (c : Codec K) (lim : HttpLimits) (env : Nat → Env K) :
    Nat → Nat → Message K → Message K → Reader → List (Exchange K) × Ending
  | 0, _, _, _, _ => ([], .outOfFuel)
  | fuel + 1, i, req, resp, r =>
    match readHead lim req.head r with
    | .error e => ([], headEnding e)
    | .ok (head, r1) =>
      match readConstLengthBody (env i).cap head.headers req.body r1 with
      | .fail e => ([], bodyEnding e)
      | .panic => ([], .panic)
      | .hang => ([], .hang)
      | .done body r2 =>
        let req1 : Message K := { head := head, body := body }
        match (env i).http req1 resp with
        | .err => ([{ req := req1, written := [] }], .handlerErr)
        | .panic => ([{ req := req1, written := [] }], .panic)
        | .ok p req2 resp2 =>
          match encodeResponse c (env i).ord resp2 with
          | (_, none) => ([{ req := req1, written := [] }], .writeFail)
          | (resp3, some bytes) =>
            match (env i).write with
            | .failAfter k s => ([{ req := req1, written := sent (.failAfter k s) bytes }], writeEnding s)
            | .ok =>
              let ex : Exchange K := { req := req1, written := bytes }
              match p with
              | .current true =>
                let (rest, e) := serveLoop c lim env fuel (i + 1) (req2.clear c) (resp3.clear c) r2
                (ex :: rest, e)
              | .current false => ([ex], .closed)
              | .webSocket => ([ex], .webSocket)
              | .http2 => ([ex], .http2)

/-- src/serve.rs:12-96 `serve`: fresh messages, then the loop. Every request takes at least one byte, so the bytes available
bound the number of requests (`serveLoop_fuel`). -/
def serve {K : Type} (c : Codec K) (lim : HttpLimits) (env : Nat → Env K) (r : Reader) : List (Exchange K) × Ending :=
  serveLoop c lim env (r.flat.length + 1) 0 Message.new Message.new r

end Httpd
