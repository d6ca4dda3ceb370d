import Verif.Props.AllAtOnce
import Verif.Props.TlsReader
/-! # C243: from the command line to what a client over TLS decrypts -/

namespace Httpd
open Spec MultiMap

/-- Both services over TLS, for everything a client can say and everything that can happen to it on the way. -/
theorem tls_talk {K : Type} (c : Codec K) (lim : HttpLimits) (env : Nat → Env K) (kind : ServiceSetting) (reply : Nat → Bytes → Bytes) (stops : Bytes → Prop) (ha : Answers kind reply stops)
    (he : ∀ j, (env j).http = kind.kind.http) (layer : RecordLayer) (sent : List TlsRecord) (o : TlsOpener) (hauth : Authentic layer sent o) (cap : Nat) (segs : List Seg) (fin : StreamEnd)
    (wcap : Nat) (back : RecordLayer) (plan : Nat → TcpRes) (hp : ∀ i, ∃ now n, plan i = .takes now n) :
    ∃ outs f n rs, Talk lim.maxUrl lim.maxHeaderLine lim.maxHeadersCount (if .closeNotify ∈ sent then .closes else .silent) reply stops 0 (spoken sent) outs f ∧
      Opened back 0 (serveTls c lim env (tlsReader o cap segs fin) wcap back plan).2.1.tls.wire rs ∧ carried rs = (outs.take n).flatten ∧
      (Opens layer sent o → (segs.map Seg.bytes).flatten = sealedFrom layer 0 sent → fin = .silent → carried rs = outs.flatten) := by
  obtain ⟨os, h1, h2, _, rs, h3, h4, _⟩ := C233_answers c lim env (tlsReader o cap segs fin) wcap back plan
  have : os = fun _ => .ok := funext (h1 hp)
  subst this
  let r := Reader.ofBytes (spoken sent) (if .closeNotify ∈ sent then .eof else .silent)
  have hr : r.flat = spoken sent := Reader.flat_ofBytes _ _
  have hf : r.fin = if .closeNotify ∈ sent then .eof else .silent := rfl
  have hk : ∃ f, fateOf (serve c lim (fun j => { env j with write := .ok }) r).2 = some f ∧
      Talk lim.maxUrl lim.maxHeaderLine lim.maxHeadersCount (afterOf r.fin) reply stops 0 r.flat ((serve c lim (fun j => { env j with write := .ok }) r).1.map (·.written)) f := by
    cases ha with
    | hello => exact C130_hello_whole c lim (fun j => { env j with write := .ok }) (fun j => ⟨he j, rfl⟩) _
    | files root => exact C130_fs_whole c lim (fun j => { env j with write := .ok }) (fun j => ⟨he j, rfl⟩) _
  obtain ⟨f, _, hf2⟩ := hk
  have haft : afterOf r.fin = if .closeNotify ∈ sent then .closes else .silent := by rw [hf]; split <;> rfl
  rw [haft, hr] at hf2
  obtain ⟨y, hy⟩ := C236_requests c lim (fun j => { env j with write := .ok }) layer sent o hauth cap segs fin r hr (fun h => by rw [hf, if_pos h])
  refine ⟨_, f, ((serve c lim (fun j => { env j with write := .ok }) (tlsReader o cap segs fin)).1.map (·.written)).length, rs, hf2, h3, ?_, fun ho hw hs => ?_⟩
  · rw [h4, ← hy, List.map_append, List.take_left']
    rfl
  · rw [h4, C237_same c lim (fun j => { env j with write := .ok }) layer sent o ho cap segs fin hw r hr (by rw [hf, hs]; split <;> rfl)]

/-- **C243.** Let the file named on the command line be accepted and the log started. Then `main` goes on to serve each service that the file asks for, and no other. What a client over TLS of one of them can
decrypt, whatever happens to its bytes on their way - as long as TCP takes the answers -, are some complete answers, the first ones of those that the grammar gives for what the client said, for the kind and
the limits that the file says; and all of them if what it sent arrives, however it is cut. -/
theorem C243_decrypted (m : Machine) (horder : ∀ l, (m.order l).Perm l) (p : Profile) (arg : Str)
    (harg : trimUnicode (fileArgument p arg) ≠ []) (v : Toml) (hread : m.read (fileArgument p arg) = some v)
    (hnd : ∀ ss, setting [u!"services", u!"Services"] 9 v = some (.table ss) → (ss.map (·.1)).Nodup) (c : Config)
    (hload : loadFile m.U p m.strict m.pathExists m.chdir m.glob m.order (some v) = .value c)
    (hlog : ∃ k, c.initLogging m.U m.openOk m.midnight m.names m.setOk = .value k) :
    ∃ services, m.start p arg = .serving services ∧ (services.map (·.1)).Nodup ∧ (∀ k, k ∈ services.map (·.1) ↔ ∃ sv, ToRun m.glob v k sv) ∧
      ∀ q ∈ services, ∃ sv kind maxUrl maxLine maxHeaders, ToRun m.glob v q.1 sv ∧
        Given (KindSays m.strict) .helloWorld (setting [u!"service", u!"Service"] 2 sv) kind ∧ LimitsInForce m.U p v sv maxUrl maxLine maxHeaders ∧
        ∀ {K : Type} (codec : Codec K) (env : Nat → Env K), (∀ j, (env j).http = q.2.service.kind.http) →
          ∀ (layer : RecordLayer) (sent : List TlsRecord) (o : TlsOpener), Authentic layer sent o →
            ∀ (cap : Nat) (segs : List Seg) (fin : StreamEnd) (back : RecordLayer) (plan : Nat → TcpRes), (∀ i, ∃ now n, plan i = .takes now n) →
              ∀ reply stops, Answers kind reply stops →
                ∃ outs f n rs, Talk maxUrl maxLine maxHeaders (if .closeNotify ∈ sent then .closes else .silent) reply stops 0 (spoken sent) outs f ∧
                  Opened back 0 (serveTls codec q.2.http.limits env (tlsReader o cap segs fin) q.2.tcp.readBuf back plan).2.1.tls.wire rs ∧
                  carried rs = (outs.take n).flatten ∧
                  (Opens layer sent o → (segs.map Seg.bytes).flatten = sealedFrom layer 0 sent → fin = .silent → carried rs = outs.flatten) := by
  obtain ⟨hs1, hs2, _, hs4⟩ := run_in_force m.U p m.strict m.pathExists m.chdir m.glob m.order horder v c hload hnd
  refine ⟨c.services, (start_serving m p arg harg v hread hnd horder c hload hlog).1, hs1, fun k => ⟨fun hk => ?_, fun ⟨sv, hk⟩ => ?_⟩, ?_⟩
  · obtain ⟨q, hq, rfl⟩ := List.mem_map.1 hk
    exact hs2 q.1 q.2 hq
  · obtain ⟨s, hs, _⟩ := hs4 k sv hk
    exact List.mem_map.2 ⟨_, hs, rfl⟩
  · intro q hof
    obtain ⟨sv, hsv⟩ := hs2 q.1 q.2 hof
    obtain ⟨s', hmem, hkind, hlim, _⟩ := hs4 _ sv hsv
    have hsame : s' = q.2 := eq_of_key_nodup hs1 hmem hof
    subst hsame
    refine ⟨sv, _, _, _, _, hsv, hkind, hlim, ?_⟩
    intro K codec env he layer sent o hauth cap segs fin back plan hp reply stops ha
    exact tls_talk codec _ env _ reply stops ha he layer sent o hauth cap segs fin _ back plan hp

/-- Non-trivial case: the process serves `limitsFile`. All of `sampleSent` arrives and the client gets two answers; the third record is changed on the way and it gets one, as if it had sent no more
than the first record. -/
example : (match (machineWith limitsFile).start .release u!"my.toml" with
    | .serving (q :: _) =>
      let got := fun b => carried (serveTls noCodec q.2.http.limits (fun _ => { sampleEnv with http := q.2.service.kind.http })
        (tlsReader (idealOpener bareLayer sampleSent) 7 (cutChunk 9 100 b) .silent) 16 bareLayer (fun _ => .takes true 4)).2.1.tls.recs
      some (q.1, got sampleWire == helloText b!"HTTP/1.1" 0 ++ helloText b!"HTTP/1.1" 1, got (sampleWire.set 71 0) == helloText b!"HTTP/1.1" 0)
    | _ => none) = some (u!"a", true, true) := by
  decide +kernel

end Httpd
