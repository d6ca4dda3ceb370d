import Verif.Props.TlsCrowd
/-! # C223 and C224 from the command line -/

namespace Httpd

open Spec

/-- The file named on the command line has been accepted and the log started: what the process goes on to serve, with what the file says about each. -/
theorem served_by_file (m : Machine) (horder : ∀ l, (m.order l).Perm l) (p : Profile) (arg : Str)
    (harg : trimUnicode (fileArgument p arg) ≠ []) (v : Toml) (hread : m.read (fileArgument p arg) = some v)
    (hnd : ∀ ss, setting [u!"services", u!"Services"] 9 v = some (.table ss) → (ss.map (·.1)).Nodup) (c : Config)
    (hload : loadFile m.U p m.strict m.pathExists m.chdir m.glob m.order (some v) = .value c)
    (hlog : ∃ k, c.initLogging m.U m.openOk m.midnight m.names m.setOk = .value k) :
    m.start p arg = .serving c.services ∧ (c.services.map (·.1)).Nodup ∧ (∀ k, k ∈ c.services.map (·.1) ↔ ∃ sv, ToRun m.glob v k sv) ∧
    ∀ q ∈ c.services, ∃ sv, ToRun m.glob v q.1 sv ∧
      Given (KindSays m.strict) .helloWorld (setting [u!"service", u!"Service"] 2 sv) q.2.service ∧
      LimitsInForce m.U p v sv q.2.http.limits.maxUrl q.2.http.limits.maxHeaderLine q.2.http.limits.maxHeadersCount ∧
      TlsInForce m.U p v sv q.2.tcp.tls.cert q.2.tcp.tls.key q.2.tcp.tls.timeout := by
  obtain ⟨hs1, hs2, _, hs4⟩ := run_in_force m.U p m.strict m.pathExists m.chdir m.glob m.order horder v c hload hnd
  refine ⟨(start_serving m p arg harg v hread hnd horder c hload hlog).1, hs1, fun k => ⟨fun hk => ?_, fun ⟨sv, hk⟩ => ?_⟩, fun q hq => ?_⟩
  · obtain ⟨q, hq, rfl⟩ := List.mem_map.1 hk
    exact hs2 q.1 q.2 hq
  · obtain ⟨s, hs, _⟩ := hs4 k sv hk
    exact List.mem_map.2 ⟨_, hs, rfl⟩
  · obtain ⟨sv, hsv⟩ := hs2 q.1 q.2 hq
    obtain ⟨s', hmem, hkind, hlim, _, _, _, _, htls⟩ := hs4 _ sv hsv
    have hsame : s' = q.2 := eq_of_key_nodup hs1 hmem hq
    subst hsame
    exact ⟨sv, hsv, hkind, hlim, htls⟩

/-- **C223**, from the command line: let the file named there be accepted and the log started. Then the process goes on to serve the services that the file asks for. For each of them (without TLS), with any limit on
open files and any number of clients that take what they are sent: if those that never let their connection end are fewer than there are descriptors, everybody who connects is accepted in the end and gets all the answers that
the grammar gives for what has arrived from it, for the kind and the limits that the file says. -/
theorem C223_command_line (m : Machine) (horder : ∀ l, (m.order l).Perm l) (p : Profile) (arg : Str)
    (harg : trimUnicode (fileArgument p arg) ≠ []) (v : Toml) (hread : m.read (fileArgument p arg) = some v)
    (hnd : ∀ ss, setting [u!"services", u!"Services"] 9 v = some (.table ss) → (ss.map (·.1)).Nodup) (c : Config)
    (hload : loadFile m.U p m.strict m.pathExists m.chdir m.glob m.order (some v) = .value c)
    (hlog : ∃ k, c.initLogging m.U m.openOk m.midnight m.names m.setOk = .value k) :
    ∃ services, m.start p arg = .serving services ∧ (services.map (·.1)).Nodup ∧ (∀ k, k ∈ services.map (·.1) ↔ ∃ sv, ToRun m.glob v k sv) ∧
      ∀ q ∈ services, ∃ sv kind maxUrl maxLine maxHeaders, ToRun m.glob v q.1 sv ∧
        Given (KindSays m.strict) .helloWorld (setting [u!"service", u!"Service"] 2 sv) kind ∧
        LimitsInForce m.U p v sv maxUrl maxLine maxHeaders ∧
        ∀ reply stops, Answers kind reply stops →
        ∀ {K : Type} (codec : Codec K) (setup : Nat → Setup K) (_ : ∀ j, (setup j).Serves q.2) (limit : Nat) (e : Forever (Crowd.Step limit codec setup) Crowd.start),
          e.Fair CrowdAct.ofLoop → (∀ j, e.Fair (CrowdAct.ofTask j)) → ∀ stuck : List Nat, stuck.length < limit →
          (∀ j, j ∉ stuck → ∀ n, j ∈ (e.state n).net.serving → ∃ n' t outs f, (e.state n').server.task j = some t ∧ (f = .closed ∨ f = .dropped) ∧
            Talk maxUrl maxLine maxHeaders (afterOf t.fin) reply stops 0 (t.arrived.map Seg.bytes).flatten outs f) →
          ∀ n i t, (e.state n).server.task i = some t →
            (∃ m, e.act m = some (.net (.accept i))) ∧
            ∃ outs f, Talk maxUrl maxLine maxHeaders (afterOf t.fin) reply stops 0 (t.arrived.map Seg.bytes).flatten outs f ∧
              ∃ m, n ≤ m ∧ ∀ m', m ≤ m' → outs.flatten <+: (e.state m').server.wire i ∧ (f = .closed ∨ f = .dropped → i ∈ (e.state m').net.gone) := by
  obtain ⟨h1, h2, h3, h4⟩ := served_by_file m horder p arg harg v hread hnd c hload hlog
  refine ⟨c.services, h1, h2, h3, fun q hq => ?_⟩
  obtain ⟨sv, hsv, hkind, hlim, _⟩ := h4 q hq
  refine ⟨sv, _, _, _, _, hsv, hkind, hlim, ?_⟩
  intro reply stops ha K codec setup hset limit e hloop htasks stuck hfew hleave n i t ht
  refine ⟨?_, C223_grammar codec setup limit e hloop htasks q.2 hset reply stops ha stuck hfew hleave n i t ht⟩
  refine (C223_everybody codec setup limit e hloop htasks stuck hfew (fun j hj n hn => ?_) n i t ht).1
  obtain ⟨n', u, outs, f, h1, h2, h3⟩ := hleave j hj n hn
  rw [← (hset j).lim] at h3
  exact ⟨n', u, h1, ((serve_fate codec (setup j) u q.2.service reply stops ha (hset j).env outs f h3).2).mpr h2⟩

/-- **C224**, from the command line: the same with TLS. Each service has the certificate, the key and the time for a handshake that the file says. For any limit on open files and any number of clients, if those past the handshake
that never let their connection end are fewer than there are descriptors, everybody who connects is accepted in the end; whoever does the handshake within the time that the file says gets all the answers that the grammar gives for
what has arrived from it, for the kind and the limits that the file says; and everybody else is sent nothing and is dropped within that time. -/
theorem C224_command_line (m : Machine) (horder : ∀ l, (m.order l).Perm l) (p : Profile) (arg : Str)
    (harg : trimUnicode (fileArgument p arg) ≠ []) (v : Toml) (hread : m.read (fileArgument p arg) = some v)
    (hnd : ∀ ss, setting [u!"services", u!"Services"] 9 v = some (.table ss) → (ss.map (·.1)).Nodup) (c : Config)
    (hload : loadFile m.U p m.strict m.pathExists m.chdir m.glob m.order (some v) = .value c)
    (hlog : ∃ k, c.initLogging m.U m.openOk m.midnight m.names m.setOk = .value k) :
    ∃ services, m.start p arg = .serving services ∧ (services.map (·.1)).Nodup ∧ (∀ k, k ∈ services.map (·.1) ↔ ∃ sv, ToRun m.glob v k sv) ∧
      ∀ q ∈ services, ∃ sv kind maxUrl maxLine maxHeaders time, ToRun m.glob v q.1 sv ∧
        Given (KindSays m.strict) .helloWorld (setting [u!"service", u!"Service"] 2 sv) kind ∧
        LimitsInForce m.U p v sv maxUrl maxLine maxHeaders ∧ TlsInForce m.U p v sv q.2.tcp.tls.cert q.2.tcp.tls.key time ∧
        ∀ reply stops, Answers kind reply stops →
        ∀ {K : Type} (codec : Codec K) (setup : Nat → Setup K) (_ : ∀ j, (setup j).Serves q.2) (limit : Nat) (hs : Nat → Handshake)
          (e : Forever (TlsCrowd.Step limit time hs codec setup) TlsCrowd.start),
          (∀ T, ∃ n, T ≤ (e.state n).net.now) → (∀ j, e.Fair (TlsCrowdAct.ofTask j)) → ∀ stuck : List Nat, stuck.length < limit →
          (∀ j, j ∉ stuck → ∀ n, j ∈ (e.state n).net.serving → ∃ n' t outs f, (e.state n').server.task j = some t ∧ (f = .closed ∨ f = .dropped) ∧
            Talk maxUrl maxLine maxHeaders (afterOf t.fin) reply stops 0 (t.arrived.map Seg.bytes).flatten outs f) →
          ∀ n i t, (e.state n).server.task i = some t →
            ∃ m0 m1, e.act m0 = some (.net (.accept i)) ∧ m0 < m1 ∧ (e.state m1).net.now ≤ (e.state m0).net.now + time ∧
            (HandshakeDone time (hs i) → e.act m1 = some (.net (.shook i)) ∧
              ∃ outs f, Talk maxUrl maxLine maxHeaders (afterOf t.fin) reply stops 0 (t.arrived.map Seg.bytes).flatten outs f ∧
                ∃ m, n ≤ m ∧ ∀ m', m ≤ m' → outs.flatten <+: (e.state m').server.wire i ∧ (f = .closed ∨ f = .dropped → i ∈ (e.state m').net.gone)) ∧
            (¬ HandshakeDone time (hs i) → ∀ m', (m1 < m' → i ∈ (e.state m').net.gone) ∧ (e.state m').server.wire i = []) := by
  obtain ⟨h1, h2, h3, h4⟩ := served_by_file m horder p arg harg v hread hnd c hload hlog
  refine ⟨c.services, h1, h2, h3, fun q hq => ?_⟩
  obtain ⟨sv, hsv, hkind, hlim, htls⟩ := h4 q hq
  refine ⟨sv, _, _, _, _, _, hsv, hkind, hlim, htls, ?_⟩
  intro reply stops ha K codec setup hset limit hs e htime htasks stuck hfew hleave n i t ht
  obtain ⟨m0, m1, k1, k2, k3, k4, k5⟩ := C224_everybody codec setup limit _ hs e htime htasks stuck hfew (fun j hj n hn => by
    obtain ⟨n', u, outs, f, h1, h2, h3⟩ := hleave j hj n hn
    rw [← (hset j).lim] at h3
    exact ⟨n', u, h1, ((serve_fate codec (setup j) u q.2.service reply stops ha (hset j).env outs f h3).2).mpr h2⟩) n i t ht
  exact ⟨m0, m1, k1, k2, k3, fun hd => ⟨(k4 hd).1, C224_grammar codec setup limit _ hs e htime htasks q.2 hset reply stops ha stuck hfew hleave n i hd t ht⟩, k5⟩

/-- Two services: one with its own time for a handshake, the other with that of the main file. -/
def tlsTimesFile : Toml :=
  .table [(u!"tcp", .table [(u!"tls", .table [(u!"timeout", .str u!"3s")])]),
    (u!"services", .table [
      (u!"a", .table [(u!"tcp", .table [(u!"addr", .str u!"a:443"), (u!"tls", .table [(u!"cert", .str u!"a.pem"), (u!"key", .str u!"a.key"), (u!"timeout", .str u!"20ms")])])]),
      (u!"b", .table [(u!"tcp", .table [(u!"addr", .str u!"b:443"), (u!"tls", .table [(u!"cert", .str u!"b.pem"), (u!"key", .str u!"b.key")])])])])]

/-- It is accepted, and this is what the process goes on to serve. -/
example : (match (machineWith tlsTimesFile).start .release u!"my.toml" with
    | .serving ss => some (ss.map (fun q => (q.1, q.2.tcp.tls.cert, q.2.tcp.tls.key, q.2.tcp.tls.timeout)))
    | _ => none) = some [(u!"a", u!"a.pem", u!"a.key", 20000000), (u!"b", u!"b.pem", u!"b.key", 3000000000)] := by
  decide +kernel

end Httpd
