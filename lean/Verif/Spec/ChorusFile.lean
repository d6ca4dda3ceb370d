import Verif.Spec.Whole
import Verif.Model.Whole
import Verif.Model.Chorus
/-! # What a file makes its services say (C226) -/

namespace Httpd.Spec

/-- The file `v` asks for a service `k`, that service gets its address and its certificate, and `line` is how it introduces itself, in the words of the file. -/
def FileIntroduces {C K : Type} (m : Machine) (p : Profile) (v : Toml) (x : ProcEnv C K) (k line : Str) : Prop :=
  ∃ sv kind addr cert key time, ToRun m.glob v k sv ∧
    Given (KindSays m.strict) .helloWorld (setting [u!"service", u!"Service"] 2 sv) kind ∧
    Given IsString [] (tcpSetting [u!"addr", u!"Addr", u!"address", u!"Address"] 0 sv) addr ∧
    TlsInForce m.U p v sv cert key time ∧
    x.bindOk k = true ∧ (∃ t, tlsLoad (x.world k).tls cert key = some t) ∧
    line = u!"httpd: listening @ " ++ addr ++ (if cert ≠ [] ∨ key ≠ [] then u!", tls ✅" else []) ++ u!", serve as " ++
      (match kind with | .helloWorld => u!"Hello world" | .fileSystem root => u!"Fs{" ++ root ++ u!"}" | .forward => u!"Forward" | .upstream => u!"Upstream")

end Httpd.Spec
