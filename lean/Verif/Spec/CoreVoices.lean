import Verif.Model.CoreVoices
/-!
# What a service that listens in per-core mode says
-/

namespace Httpd.Spec

open Httpd

/-- The service `p` gets as far as listening, and the line says where, whether with TLS, and what it serves. -/
structure CoreAnnounces {C K : Type} (x : CoreEnv C K) (p : Str × ServiceConfig) (line : Str) : Prop where
  runtime : x.runtimeOk p.1 = true
  bound : x.env.bindOk p.1 = true
  tls : ∃ t, tlsLoad (x.env.world p.1).tls p.2.tcp.tls.cert p.2.tcp.tls.key = some t
  printed : x.prints.service p.1 = true
  line : line = u!"httpd: listening @ " ++ p.2.tcp.addr ++ (if p.2.tcp.tls.cert ≠ [] ∨ p.2.tcp.tls.key ≠ [] then u!", tls ✅" else []) ++ u!", serve as " ++
    (match p.2.service with
    | .helloWorld => u!"Hello world" | .fileSystem root => u!"Fs{" ++ root ++ u!"}" | .forward => u!"Forward" | .upstream => u!"Upstream")

/-- The service `p` panics: its line cannot be printed, or it is of a kind that is not there yet. -/
def CorePanics {C K : Type} (x : CoreEnv C K) (p : Str × ServiceConfig) : Prop :=
  x.runtimeOk p.1 = true ∧ x.env.bindOk p.1 = true ∧ (∃ t, tlsLoad (x.env.world p.1).tls p.2.tcp.tls.cert p.2.tcp.tls.key = some t) ∧
  (x.prints.service p.1 = false ∨ p.2.service = .forward ∨ p.2.service = .upstream)

end Httpd.Spec
