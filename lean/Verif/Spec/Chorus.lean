import Verif.Model.Chorus
/-!
# What a service that listens says
-/

namespace Httpd.Spec

open Httpd

/-- The service `p` gets as far as listening, and the line says where, whether with TLS, and what it serves. -/
structure Introduces {C K : Type} (x : ProcEnv C K) (pr : Prints) (p : Str × ServiceConfig) (line : Str) : Prop where
  bound : x.bindOk p.1 = true
  tls : ∃ t, tlsLoad (x.world p.1).tls p.2.tcp.tls.cert p.2.tcp.tls.key = some t
  printed : pr.service p.1 = true
  line : line = u!"httpd: listening @ " ++ p.2.tcp.addr ++ (if p.2.tcp.tls.cert ≠ [] ∨ p.2.tcp.tls.key ≠ [] then u!", tls ✅" else []) ++ u!", serve as " ++
    (match p.2.service with
    | .helloWorld => u!"Hello world" | .fileSystem root => u!"Fs{" ++ root ++ u!"}" | .forward => u!"Forward" | .upstream => u!"Upstream")

/-- The service `p` panics: its line cannot be printed, or it is of a kind that is not there yet. -/
def Falls {C K : Type} (x : ProcEnv C K) (pr : Prints) (p : Str × ServiceConfig) : Prop :=
  x.bindOk p.1 = true ∧ (∃ t, tlsLoad (x.world p.1).tls p.2.tcp.tls.cert p.2.tcp.tls.key = some t) ∧
  (pr.service p.1 = false ∨ p.2.service = .forward ∨ p.2.service = .upstream)

end Httpd.Spec
