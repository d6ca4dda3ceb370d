import Verif.Spec.Effective
import Verif.Spec.Include
/-!
# The services of a process that is given a configuration file
-/

namespace Httpd.Spec

/-- A service that is nothing but an address. -/
def builtinService : Toml := .table [(u!"tcp", .table [(u!"addr", .str u!"0.0.0.0:8080")])]

/-- The services to be run for the file `v`, by name: those that it offers; if it offers none, one that says hello. -/
def ToRun (glob : Str → Option (List GlobFile)) (v : Toml) (k : Str) (sv : Toml) : Prop :=
  Offers glob v k sv ∨ (∀ k' sv', ¬ Offers glob v k' sv') ∧ k = u!"helloworld" ∧ sv = builtinService

/-- A setting of the section `tcp` of a service, if there is one. -/
def tcpSetting (names : List Str) (i : Nat) (sv : Toml) : Option Toml := (setting [u!"tcp", u!"Tcp"] 4 sv).bind (setting names i)

/-- Neither the service nor the main file asks for a buffer that is larger than anything a program can allocate. -/
def SmallBuffers (U : Unicode) (p : Profile) (v sv : Toml) : Prop :=
  ∀ names i, (names, i) ∈ [([u!"read_stream_buf_size", u!"ReadStreamBufSize"], 2), ([u!"buf_size", u!"BufSize"], 4)] →
    ∀ n, Given (IsSize U p) 0 (tcpSetting names i sv) n ∨ Given (IsSize U p) 0 ((setting [u!"tcp", u!"Tcp"] 5 v).bind (setting names i)) n →
      n ≤ 9223372036854775807

/-- A setting of the section `tcp.tls` of a service (`place` 4) or of the main file (`place` 5), if there is one. -/
def tlsSetting (place : Nat) (name : Str) (i : Nat) (v : Toml) : Option Toml :=
  ((setting [u!"tcp", u!"Tcp"] place v).bind (setting [u!"tls"] 1)).bind (setting [name] i)

/-- The certificate, the key and the time for a handshake, in nanoseconds, that are in force for the service `sv` of the file `v`. Only the last is inherited. -/
def TlsInForce (U : Unicode) (p : Profile) (v sv : Toml) (cert key : Str) (time : Nat) : Prop :=
  ∃ own main, Given IsString [] (tlsSetting 4 u!"cert" 0 sv) cert ∧ Given IsString [] (tlsSetting 4 u!"key" 1 sv) key ∧
    Given (IsDuration U p) 0 (tlsSetting 4 u!"timeout" 2 sv) own ∧ Given (IsDuration U p) 0 (tlsSetting 5 u!"timeout" 2 v) main ∧
    time = inForce own main 15000000000

end Httpd.Spec
