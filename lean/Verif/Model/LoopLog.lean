import Verif.Model.Main
import Verif.Model.ConnLog
/-!
# Model of the log records of the accept loops (src/main.rs:80-104, 117-165)

Each accepted connection gets a task; what its task logs is one list, in the order in which the connections were accepted. How the records of the tasks mix
is not in here (C206). The texts of the address of a client and of the error of a handshake are parameters.
-/

namespace Httpd

/-- src/main.rs:131-156: what the task of a connection with TLS logs. A handshake that does not end is ended by the time-out. `served` is what
`serve::serve` logs. -/
def tlsTaskLog (debug : Bool) (timeout : Nat) (addr err : Bytes) (hs : Handshake) (served : List Rec) : List Rec :=
  match hs.time with
  | none => if debug then [⟨.trace, [], b!"tls handshake timeout, " ++ addr⟩] else []
  | some t =>
    if timeout < t then (if debug then [⟨.trace, [], b!"tls handshake timeout, " ++ addr⟩] else [])
    else if hs.ok then served
    else if debug then [⟨.trace, [], b!"tls handshake failed, " ++ addr ++ b!", " ++ err⟩] else []

/-- src/main.rs:81-104 and 117-165: the records of the tasks, by the number of the connection, up to Ctrl-C. `tls` is the time-out of handshakes, `none` for
a service without TLS. Failed accepts are in `acceptLog`. -/
def loopLog (debug : Bool) (tls : Option Nat) (addr err : Nat → Bytes) (served : Nat → List Rec) : List AcceptEvent → List (Nat × List Rec)
  | [] => []
  | .conn id hs :: es =>
    (id, match tls with
      | none => served id
      | some timeout => tlsTaskLog debug timeout (addr id) (err id) hs (served id)) :: loopLog debug tls addr err served es
  | .acceptErr :: es => loopLog debug tls addr err served es
  | .ctrlC :: _ => []

end Httpd
