import Verif.Model.System
import Verif.Props.Main
import Verif.Props.Services
import Verif.Props.Writer
import Verif.Props.Head
import Verif.Props.ConnLog
import Verif.Props.Logging
import Verif.Props.ConfigFix
/-! # C124–C126: the whole server -/

namespace Httpd
open Spec MultiMap

/-! ## C124: the default server -/

@[simp] theorem connection_served {C K : Type} (x : World C K) (s : ServiceConfig) (d : Served) : (s.connection x d).served = d := by
  rw [ServiceConfig.connection]
  split <;> rfl

/-- Every connection of a run is one that was accepted for serving, and what happened on it is a function of its own client. -/
theorem run_mem {C K : Type} (x : World C K) (bindOk : Bool) (es : List AcceptEvent) (s : ServiceConfig) (v : Conn K)
    (h : v ∈ (s.run x bindOk es).1) :
    v = s.connection x v.served ∧
      v.served ∈ (runService x.tls s.tcp.tls.cert s.tcp.tls.key s.tcp.tls.timeout s.service.kind bindOk true es).1 := by
  simp only [ServiceConfig.run, List.mem_map] at h
  obtain ⟨d, hd, rfl⟩ := h
  rw [connection_served]
  exact ⟨rfl, hd⟩

theorem run_ids {C K : Type} (x : World C K) (bindOk : Bool) (es : List AcceptEvent) (s : ServiceConfig) :
    (s.run x bindOk es).1.map (·.served) =
      (runService x.tls s.tcp.tls.cert s.tcp.tls.key s.tcp.tls.timeout s.service.kind bindOk true es).1 ∧
    (s.run x bindOk es).2 = (runService x.tls s.tcp.tls.cert s.tcp.tls.key s.tcp.tls.timeout s.service.kind bindOk true es).2 := by
  refine ⟨?_, rfl⟩
  simp only [ServiceConfig.run, List.map_map]
  have : ((fun v : Conn K => v.served) ∘ s.connection x) = id := by
    funext d
    exact connection_served x s d
  rw [this, List.map_id]

/-- The buffers of a connection are of a size that can be allocated. -/
def ServiceConfig.Allocates (s : ServiceConfig) : Prop := s.tcp.readBuf ≤ isizeMax ∧ s.tcp.buf ≤ isizeMax

instance (s : ServiceConfig) : Decidable s.Allocates := inferInstanceAs (Decidable (_ ∧ _))

theorem ServiceConfig.Allocates.neg {s : ServiceConfig} (h : s.Allocates) : ¬ (isizeMax < s.tcp.readBuf ∨ isizeMax < s.tcp.buf) := by
  have := h.1
  have := h.2
  omega

/-- A connection whose stream takes every write is the connection of Model/Serve.lean with successful writes. -/
theorem connection_serve {C K : Type} (x : World C K) (s : ServiceConfig) (hs : s.Allocates)
    (d : Served) (hp : ∀ i, ∃ n, x.plan d.id i = .takes (n + 1)) :
    ∃ env : Nat → Env K, (∀ j, (env j).http = s.service.kind.http ∧ (env j).write = .ok) ∧
      let conn := serve x.codec s.http.limits env (x.client d.id)
      (s.connection x d).requests = conn.1.map (·.req) ∧ (s.connection x d).ending = conn.2 ∧
      (s.connection x d).wire = (conn.1.map (·.written)).flatten := by
  obtain ⟨outs, h1, h2, h3, h4⟩ := C112_wire x.codec s.http.limits
    (fun j =>
      { http := s.service.kind.http, cap := x.cap d.id j + 1, cap_pos := Nat.le_add_left 1 _, write := .ok, ord := x.ord d.id j })
    (x.client d.id) s.tcp.readBuf (x.plan d.id)
  simp only [ServiceConfig.connection, hs.neg, ↓reduceIte]
  exact ⟨_, fun j => ⟨rfl, h1 hp j⟩, h2, h3, h4⟩

/-- The service an empty configuration file gives, after fix-up: port 8080, no TLS, buffers of 8 KiB, and the default limits. -/
def defaultEffective : ServiceConfig :=
  { idx := 1, name := u!"helloworld", host := u!"*", service := .helloWorld,
    logging := { LoggingConfig.default with serviceName := u!"helloworld", serviceIdx := 1 },
    tcp := { addr := u!"0.0.0.0:8080", tls := { cert := [], key := [], timeout := 15000000000 }, readBuf := 8192, writeBuf := 8192,
             buf := 8192 },
    http := { keepAlive := none, idleTimeout := 0, maxUrl := 8192, maxLine := 6144, maxHeaders := 128, maxBody := 10485760,
              compression := none, websocket := none } }

theorem default_load (pathExists : Str → Bool) (sorder : List (Str × ServiceConfig) → List (Str × ServiceConfig))
    (hsorder : ∀ l, (sorder l).Perm l) :
    ∃ c, Config.load pathExists (some .empty) true [] sorder = .value c ∧ c.services = [(u!"helloworld", defaultEffective)] := by
  have h1 : sorder [(u!"helloworld", defaultService)] = [(u!"helloworld", defaultService)] :=
    List.perm_singleton.mp (hsorder _)
  simp only [Config.load, Bool.not_true, Bool.false_eq_true, ↓reduceIte, includeAll]
  have hss : (if Config.empty.services.length < 1 then [(u!"helloworld", defaultService)] else Config.empty.services) =
      [(u!"helloworld", defaultService)] := rfl
  rw [hss, h1]
  exact ⟨_, rfl, rfl⟩

/-- **C124.** From an empty configuration file to the bytes on the wire: the program starts exactly one service, and on it every
client that connects before Ctrl-C is served, over plain TCP; a client that sends well-formed requests within the default limits
(none with major version 0), however they are cut into segments and however its side takes the answers, is sent exactly the
answers of `helloText`, in order, whatever the other clients do. -/
theorem C124_default_server {U : Unicode} (hU : LawfulUnicode U) (pathExists openOk midnight : Str → Bool) (order : List Str → List Str)
    (horder : ∀ l, (order l).Perm l) (sorder : List (Str × ServiceConfig) → List (Str × ServiceConfig))
    (hsorder : ∀ l, (sorder l).Perm l) :
    ∃ c s, Config.load pathExists (some .empty) true [] sorder = .value c ∧
      mainStart (.value c) (fun c => c.initLogging U openOk midnight order true) = .serving [(u!"helloworld", s)] ∧
      s.tcp.addr = u!"0.0.0.0:8080" ∧
      ∀ {C K : Type} (x : World C K) (es : List AcceptEvent),
        (s.run x true es).1.map (fun v => (v.served.id, v.served.encrypted)) = (accepted es).map (fun p => (p.1, false)) ∧
        ((s.run x true es).2 = .ok ↔ AcceptEvent.ctrlC ∈ es) ∧
        ∀ v ∈ (s.run x true es).1, (∀ i, ∃ n, x.plan v.served.id i = .takes (n + 1)) →
          ∀ qs : List WireReq, (∀ q ∈ qs, q.WF 8192 6144 128 ∧ ¬ helloCloses q.head.w2) →
            (x.client v.served.id).flat = encodeAll qs →
            v.wire = (qs.mapIdx (fun j q => helloText q.head.w2 j)).flatten ∧
            v.ending = (if (x.client v.served.id).fin = .silent then .waiting else .headFail .connReadError) := by
  obtain ⟨c, hc, hs⟩ := default_load pathExists sorder hsorder
  obtain ⟨c', s', hc', hm'⟩ := (C91_no_file_violated hU pathExists openOk midnight order horder [] rfl (fun _ => .error) sorder hsorder).2
  rw [hc] at hc'
  cases hc'
  have hs' : s' = defaultEffective := by
    simp only [mainStart] at hm'
    split at hm'
    · cases hm'
    · cases hm'
    · cases hm'
    · split at hm'
      · cases hm'
      · rw [hs] at hm'
        simpa using hm'.symm
  subst hs'
  refine ⟨c, defaultEffective, hc, hm', rfl, ?_⟩
  intro C K x es
  obtain ⟨hi, he⟩ := run_ids x true es defaultEffective
  have hrun : runService x.tls defaultEffective.tcp.tls.cert defaultEffective.tcp.tls.key defaultEffective.tcp.tls.timeout
      defaultEffective.service.kind true true es = plainLoop es := rfl
  rw [hrun] at hi he
  refine ⟨?_, ?_, ?_⟩
  · have : (defaultEffective.run x true es).1.map (fun v => (v.served.id, v.served.encrypted)) =
        ((defaultEffective.run x true es).1.map (·.served)).map (fun d => (d.id, d.encrypted)) := by simp
    rw [this, hi, plainLoop_served]
    simp
  · rw [he]
    exact ((C81_accepts_all x.tls [] [] 15000000000 .helloWorld (Or.inl rfl) es).2 (Or.inr ⟨rfl, rfl⟩)).1
  · intro v hv hp qs hq hflat
    obtain ⟨h1, _⟩ := run_mem x true es defaultEffective v hv
    obtain ⟨env, e1, _, e3, e4⟩ := connection_serve x defaultEffective (by decide) v.served hp
    have ht := (C78_hello_transcript x.codec defaultEffective.http.limits env e1 qs (fun q hm => (hq q hm).1)
      (fun q hm => (hq q hm).2) (x.client v.served.id)).1 hflat
    exact ⟨(congrArg Conn.wire h1).trans (by rw [e4, ht.1]), (congrArg Conn.ending h1).trans (e3.trans ht.2)⟩

/-- Three clients of the default server: two are served before Ctrl-C, the second of them sends two requests. -/
def sampleWorld : World Unit Unit :=
  { tls := sampleTls, codec := noCodec,
    client := fun id => if id = 7 then Reader.ofBytes (b!"GET / HTTP/1.1\r\n\r\n" ++ b!"GET /x x\r\n\r\n") .eof else Reader.ofBytes [] .silent,
    plan := fun _ _ => .takes 3, cap := fun _ _ => 8191, ord := fun _ _ ps => ps }

example : ((defaultEffective.run sampleWorld true [.conn 5 ⟨none, true⟩, .acceptErr, .conn 7 ⟨none, true⟩, .ctrlC, .conn 9 ⟨none, true⟩]).1.map
      (fun v => (v.served.id, v.requests.length, v.ending))) = [(5, 0, .waiting), (7, 2, .headFail .connReadError)] ∧
    ((defaultEffective.run sampleWorld true [.conn 7 ⟨none, true⟩]).1.map (·.wire)) =
      [b!"HTTP/1.1HTTP/1.1 200 OK\r\nserver: httpd.rs\r\ncontent-length: 12\r\n\r\nHello world!" ++
       b!"HTTP/1.1 200 OK\r\nserver: httpd.rs\r\ncontent-length: 24\r\n\r\nHello world!Hello world!"] := by
  decide +kernel

/-! ## C125: settings -/

/-- Apart from zero, the header-count limit makes no difference to the scan of a line. -/
theorem scanLine_count (m m' : Nat) (h : 1 ≤ m) (h' : 1 ≤ m') (hs : MultiMap) (key rest : Bytes) :
    scanLine m hs key rest = scanLine m' hs key rest := by
  induction rest generalizing key with
  | nil => rfl
  | cons c rest ih =>
    have e1 : ¬ m < 1 := by omega
    have e2 : ¬ m' < 1 := by omega
    simp only [scanLine, e1, e2, ↓reduceIte, ih]

theorem readHead_limits (l l' : HttpLimits) (hu : l'.maxUrl = l.maxUrl) (hl : l'.maxHeaderLine = l.maxHeaderLine)
    (h : 1 ≤ l.maxHeadersCount) (h' : 1 ≤ l'.maxHeadersCount) (hd : Head) (r : Reader) : readHead l' hd r = readHead l hd r := by
  have hloop : ∀ fuel hs r, headerLoop l' fuel hs r = headerLoop l fuel hs r := by
    intro fuel
    induction fuel with
    | zero => intro hs r; rfl
    | succ fuel ih =>
      intro hs r
      simp only [headerLoop, hl, scanLine_count _ _ h' h, ih]
  simp only [readHead, readHeadFuel, hu, hloop]

theorem serveLoopW_limits {K : Type} (c : Codec K) (l l' : HttpLimits) (hu : l'.maxUrl = l.maxUrl)
    (hl : l'.maxHeaderLine = l.maxHeaderLine) (h : 1 ≤ l.maxHeadersCount) (h' : 1 ≤ l'.maxHeadersCount) (env : Nat → Env K)
    (fuel i : Nat) (req resp : Message K) (r : Reader) (w : ConnW) :
    serveLoopW c l' env fuel i req resp r w = serveLoopW c l env fuel i req resp r w := by
  induction fuel generalizing i req resp r w with
  | zero => rfl
  | succ fuel ih => simp only [serveLoopW, readHead_limits l l' hu hl h h', ih]

/-- **C125**, negation for the code as written: two services that differ in any of these settings - host, keep-alive, idle timeout,
header-count limit, body limit, compression, WebSocket, write buffer size, message buffer size, root directory of files - behave
the same in every world: the same connections are served, the same requests are delivered, the same bytes are sent, and all ends
in the same way. (Fix-up leaves no header-count limit of 0, C53. Buffer sizes that cannot be allocated make a difference, see
`C126_too_large_violated`.) -/
theorem C125_ignored_violated {C K : Type} (s s' : ServiceConfig)
    (hkind : s'.service.kind = s.service.kind) (htls : s'.tcp.tls = s.tcp.tls) (hbuf : s'.tcp.readBuf = s.tcp.readBuf)
    (hu : s'.http.maxUrl = s.http.maxUrl) (hl : s'.http.maxLine = s.http.maxLine)
    (h : 1 ≤ s.http.maxHeaders) (h' : 1 ≤ s'.http.maxHeaders) (ha : s.Allocates) (ha' : s'.Allocates) (x : World C K) (bindOk : Bool) (es : List AcceptEvent) :
    s'.run x bindOk es = s.run x bindOk es := by
  have hc : s'.connection x = s.connection x := by
    funext d
    simp only [ServiceConfig.connection]
    rw [if_neg ha.neg, if_neg ha'.neg]
    simp only [hkind, serveW, hbuf,
      serveLoopW_limits x.codec s.http.limits s'.http.limits hu hl h h']
  simp only [ServiceConfig.run, hkind, htls, hc]

/-- The hypotheses are met by the default service and one in which all of these settings are different. -/
example :
    let s : ServiceConfig := { defaultEffective with
      host := u!"example.org"
      tcp := { defaultEffective.tcp with writeBuf := 65536, buf := 65536 }
      http := { defaultEffective.http with keepAlive := some false, idleTimeout := 10000000000, maxHeaders := 1, maxBody := 1,
                                           compression := some 9, websocket := some 1 } }
    s ≠ defaultEffective ∧ (s.run sampleWorld true [.conn 7 ⟨none, true⟩]).1.map (·.wire) =
      (defaultEffective.run sampleWorld true [.conn 7 ⟨none, true⟩]).1.map (·.wire) := by
  refine ⟨by decide +kernel, ?_⟩
  exact congrArg (fun y : List (Conn Unit) × RunEnd => y.1.map (·.wire))
    (C125_ignored_violated defaultEffective _ rfl rfl rfl rfl rfl (by decide) (by decide) (by decide) (by decide) sampleWorld true [.conn 7 ⟨none, true⟩])

/-- Every request a service gets has a head that was read, within the limits of the service, into empty fields. -/
theorem run_heads {C K : Type} (x : World C K) (bindOk : Bool) (es : List AcceptEvent) (s : ServiceConfig) (v : Conn K)
    (h : v ∈ (s.run x bindOk es).1) (q : Message K) (hq : q ∈ v.requests) :
    ∃ hd0 r0 r1, Head.Blank hd0 ∧ readHead s.http.limits hd0 r0 = .ok (q.head, r1) := by
  obtain ⟨h1, _⟩ := run_mem x bindOk es s v h
  obtain ⟨outs, _, h2, _⟩ := C112_wire x.codec s.http.limits
    (fun j =>
      { http := s.service.kind.http, cap := x.cap v.served.id j + 1, cap_pos := Nat.le_add_left 1 _, write := .ok,
        ord := x.ord v.served.id j })
    (x.client v.served.id) s.tcp.readBuf (x.plan v.served.id)
  rw [h1] at hq
  simp only [ServiceConfig.connection] at hq
  split at hq
  · cases hq
  rw [h2] at hq
  obtain ⟨ex, hex, rfl⟩ := List.mem_map.mp hq
  exact serveLoop_heads _ _ _ _ 0 Message.new Message.new Head.blank_new _ ex hex

/-- **C125**, what holds: the limits for targets and header lines that are given for a service take effect on all its connections,
through fix-up, start and serving; and so does the size of its read buffer, which also is that of the writer. Missing: the settings
of `C125_ignored_violated`. -/
theorem C125_used_partial {C K : Type} (pathExists : Str → Bool) (s s1 : ServiceConfig) (rtcp : TcpConfig) (rhttp : HttpConfig)
    (hfix : s.autofix pathExists rtcp rhttp = some s1) (x : World C K) (bindOk : Bool) (es : List AcceptEvent) :
    (∀ v ∈ (s1.run x bindOk es).1, ∀ q ∈ v.requests,
      (0 < s.http.maxUrl → q.head.f1.length < s.http.maxUrl) ∧
      (0 < s.http.maxLine → ∀ ord, IsOrder ord → ∀ e ∈ q.head.headers.entries ord, e.1.length + 3 ≤ s.http.maxLine ∧
        ∀ y ∈ e.2, y.length + 3 ≤ s.http.maxLine)) ∧
    (4096 ≤ s.tcp.readBuf → s1.tcp.readBuf = s.tcp.readBuf) := by
  have hs1 : s1.http = s.http.autofix (some rhttp) ∧ s1.tcp = s.tcp.autofix (some rtcp) := by
    simp only [ServiceConfig.autofix] at hfix
    split at hfix
    · cases hfix; exact ⟨rfl, rfl⟩
    · cases hfix
  obtain ⟨c53, _⟩ := C53_http s.http (some rhttp)
  refine ⟨fun v hv q hq => ?_, fun h => ?_⟩
  · obtain ⟨hd0, r0, r1, hb, hr⟩ := run_heads x bindOk es s1 v hv q hq
    obtain ⟨_, g1, _, g2⟩ := C07_sizes_partial s1.http.limits hd0 q.head hb r0 r1 hr
    simp only [HttpConfig.limits, hs1.1] at g1 g2
    refine ⟨fun h0 => ?_, fun h0 ord ho e he => ?_⟩
    · rwa [(c53 HttpConfig.maxUrl (by simp)).2 h0] at g1
    · rw [(c53 HttpConfig.maxLine (by simp)).2 h0] at g2
      exact ⟨(g2 ord ho e he).1, (g2 ord ho e he).2.1⟩
  · rw [hs1.2]
    exact ((C52_tcp s.tcp (some rtcp)).1 TcpConfig.readBuf (by simp)).2.1 h

/-- A service with a target limit of 20 bytes: it gets the short request and not the long one. -/
example :
    let s : ServiceConfig := { defaultService with http := { HttpConfig.default with maxUrl := 20 } }
    let x : World Unit Unit := { sampleWorld with
      client := fun id => Reader.ofBytes (if id = 1 then b!"GET /short HTTP/1.1\r\n\r\n" else b!"GET /0123456789012345678901234567890123456789 HTTP/1.1\n\n") .eof }
    (s.autofix (fun _ => false) .default .default).map
      (fun s1 => (s1.run x true [.conn 1 ⟨none, true⟩, .conn 2 ⟨none, true⟩]).1.map (fun v => v.requests.map (·.head.f1))) =
      some [[b!"/short"], []] := by
  decide +kernel

/-! ## C126: services that were accepted -/

/-- **C126**, what holds: an accepted hello-world or file-system service whose address can be bound and whose certificates load
neither panics nor fails: it serves until Ctrl-C. Missing: the other two kinds, and addresses that are used twice. -/
theorem C126_started_partial {C K : Type} (x : World C K) (es : List AcceptEvent) (s : ServiceConfig)
    (hk : s.service.kind = .helloWorld ∨ s.service.kind = .fileSystem)
    (htls : TlsLoads x.tls s.tcp.tls.cert s.tcp.tls.key ∨ (s.tcp.tls.cert = [] ∧ s.tcp.tls.key = [])) :
    ((s.run x true es).2 = .ok ↔ AcceptEvent.ctrlC ∈ es) ∧ ((s.run x true es).2 = .waiting ↔ AcceptEvent.ctrlC ∉ es) := by
  rw [(run_ids x true es s).2]
  exact (C81_accepts_all x.tls s.tcp.tls.cert s.tcp.tls.key s.tcp.tls.timeout s.service.kind hk es).2 htls

/-- **C126**, negation for the code as written: every forwarding or upstream service passes fix-up, and panics when it is started
(with its address bound and its certificates loaded) before it accepts a connection. -/
theorem C126_todo_violated {C K : Type} (pathExists : Str → Bool) (s : ServiceConfig) (hs : s.service = .forward ∨ s.service = .upstream)
    (rtcp : TcpConfig) (rhttp : HttpConfig) (x : World C K) (es : List AcceptEvent)
    (htls : TlsLoads x.tls s.tcp.tls.cert s.tcp.tls.key ∨ (s.tcp.tls.cert = [] ∧ s.tcp.tls.key = [])) :
    ∃ s1, s.autofix pathExists rtcp rhttp = some s1 ∧ s1.run x true es = ([], .panic) := by
  have hfix : s.service.autofix pathExists = true := by rcases hs with h | h <;> rw [h] <;> rfl
  refine ⟨_, by simp only [ServiceConfig.autofix, hfix, ↓reduceIte]; rfl, ?_⟩
  have hload : ∃ t, tlsLoad x.tls s.tcp.tls.cert s.tcp.tls.key = some t := by
    by_cases h0 : s.tcp.tls.cert = [] ∧ s.tcp.tls.key = []
    · exact ⟨none, by simp [tlsLoad, h0.1, h0.2]⟩
    · rcases tlsLoad_cases x.tls s.tcp.tls.cert s.tcp.tls.key (by
        by_cases h1 : s.tcp.tls.cert = []
        · exact Or.inr (fun h2 => h0 ⟨h1, h2⟩)
        · exact Or.inl h1) with ⟨_, cfg, h⟩ | ⟨h, _⟩
      · exact ⟨_, h⟩
      · rcases htls with h1 | h1
        · exact absurd h1 h
        · exact absurd h1 h0
  obtain ⟨t, ht⟩ := hload
  have e1 : ∀ a, (TcpConfig.autofix s.tcp a).tls.cert = s.tcp.tls.cert := by
    intro a; rw [TcpConfig.autofix_eq, TlsConfig.autofix_eq]
  have e2 : ∀ a, (TcpConfig.autofix s.tcp a).tls.key = s.tcp.tls.key := by
    intro a; rw [TcpConfig.autofix_eq, TlsConfig.autofix_eq]
  simp only [ServiceConfig.run, runService, Bool.not_true, Bool.false_eq_true, ↓reduceIte, e1, e2, ht]
  rcases hs with h | h <;> rw [h] <;> rfl

/-- A forwarding service without TLS. -/
example : ({ defaultService with service := .forward } : ServiceConfig).service = .forward ∧
    (({ defaultService with service := .forward } : ServiceConfig).run sampleWorld true [.conn 7 ⟨none, true⟩]).2 = .panic := by
  decide +kernel

/-- **C126**, negation for the code as written: a configuration with two services on one address is accepted, although the system
gives an address to one listener only; so one of the two ends at once, without serving anybody. -/
theorem C126_same_address_violated {C K : Type} (pathExists : Str → Bool) (c : Config) (k1 k2 : Str) (s1 s2 : ServiceConfig)
    (hc : c.services = [(k1, s1), (k2, s2)]) (h1 : trimUnicode k1 ≠ []) (h2 : trimUnicode k2 ≠ [])
    (hs1 : s1.service = .helloWorld) (hs2 : s2.service = .helloWorld) (haddr : s1.tcp.addr = s2.tcp.addr) :
    ∃ c' s1' s2', c.autofix pathExists = some c' ∧ c'.services = [(k1, s1'), (k2, s2')] ∧ s1'.tcp.addr = s2'.tcp.addr ∧
      ∀ bind1 bind2 : Bool, ¬ (bind1 = true ∧ bind2 = true) → ∀ (x1 x2 : World C K) (es1 es2 : List AcceptEvent),
        s1'.run x1 bind1 es1 = ([], .err) ∨ s2'.run x2 bind2 es2 = ([], .err) := by
  have hacc : (c.autofix pathExists).isSome := by
    rw [C87_accepted_iff, hc]
    intro p hp
    simp only [List.mem_cons, List.not_mem_nil, or_false] at hp
    rcases hp with rfl | rfl
    · exact ⟨h1, fun root h => by rw [hs1] at h; cases h⟩
    · exact ⟨h2, fun root h => by rw [hs2] at h; cases h⟩
  obtain ⟨c', hc'⟩ := Option.isSome_iff_exists.mp hacc
  have h84 := (C84_nothing_else pathExists c c' hc').2
  rw [hc] at h84
  generalize hss : c'.services = ss at h84
  cases h84 with
  | cons ha hrest =>
    cases hrest with
    | cons hb hnil =>
      cases hnil
      rename_i qa qb
      obtain ⟨ka, sa⟩ := qa
      obtain ⟨kb, sb⟩ := qb
      simp only at ha hb
      refine ⟨c', sa, sb, hc', ?_, ?_, ?_⟩
      · rw [hss, ha.1, hb.1]
      · rw [ha.2.2.2.1, hb.2.2.2.1, haddr]
      · intro b1 b2 hb12 x1 x2 es1 es2
        cases b1 with
        | false => left; rfl
        | true =>
          cases b2 with
          | false => right; rfl
          | true => exact absurd ⟨rfl, rfl⟩ hb12

/-- **C126**, negation for the code as written: a read buffer or message buffer of more than `isize::MAX` bytes is accepted, and kept by
fix-up; then every connection panics before anything is read or sent. -/
theorem C126_too_large_violated {C K : Type} (pathExists : Str → Bool) (s : ServiceConfig) (hs : s.service.autofix pathExists = true)
    (hbig : isizeMax < s.tcp.readBuf ∨ isizeMax < s.tcp.buf) (rtcp : TcpConfig) (rhttp : HttpConfig) :
    ∃ s1, s.autofix pathExists rtcp rhttp = some s1 ∧ ∀ (x : World C K) (bindOk : Bool) (es : List AcceptEvent),
      ∀ v ∈ (s1.run x bindOk es).1, v.requests = [] ∧ v.wire = [] ∧ v.ending = .panic := by
  refine ⟨_, by simp only [ServiceConfig.autofix, hs, ↓reduceIte]; rfl, ?_⟩
  intro x bindOk es v hv
  obtain ⟨h1, _⟩ := run_mem x bindOk es _ v hv
  have h52 := (C52_tcp s.tcp (some rtcp)).1
  have hbig' : isizeMax < (s.tcp.autofix (some rtcp)).readBuf ∨ isizeMax < (s.tcp.autofix (some rtcp)).buf := by
    rcases hbig with h | h
    · left; rwa [(h52 TcpConfig.readBuf (by simp)).2.1 (by unfold isizeMax at h; omega)]
    · right; rwa [(h52 TcpConfig.buf (by simp)).2.1 (by unfold isizeMax at h; omega)]
  simp only [ServiceConfig.connection, hbig', ↓reduceIte] at h1
  exact ⟨congrArg Conn.requests h1, congrArg Conn.wire h1, congrArg Conn.ending h1⟩

/-- A service with such a buffer: two clients connect. -/
example :
    let s : ServiceConfig := { defaultService with tcp := { defaultService.tcp with readBuf := 9223372036854775808 } }
    s.service.autofix (fun _ => false) = true ∧ isizeMax < s.tcp.readBuf ∧
    (s.autofix (fun _ => false) .default .default).map
      (fun s1 => (s1.run sampleWorld true [.conn 5 ⟨none, true⟩, .conn 7 ⟨none, true⟩]).1.map (fun v => (v.served.id, v.wire, v.ending))) =
      some [(5, [], .panic), (7, [], .panic)] := by
  decide +kernel

/-! ## C127: TLS for the whole server -/

/-- **C127**, negation for the code as written: a certificate and a key given for the whole server are not used: a service without
its own is started, and serves everybody unencrypted. -/
theorem C127_root_tls_violated {C K : Type} (pathExists : Str → Bool) (s s1 : ServiceConfig) (rtcp : TcpConfig) (rhttp : HttpConfig)
    (hown : s.tcp.tls.cert = [] ∧ s.tcp.tls.key = []) (hfix : s.autofix pathExists rtcp rhttp = some s1)
    (hk : s.service.kind = .helloWorld ∨ s.service.kind = .fileSystem) (x : World C K) (es : List AcceptEvent) :
    (s1.run x true es).1.map (·.served.id) = (accepted es).map (·.1) ∧ ∀ v ∈ (s1.run x true es).1, v.served.encrypted = false := by
  have hs1 : s1.service = s.service ∧ s1.tcp = s.tcp.autofix (some rtcp) := by
    simp only [ServiceConfig.autofix] at hfix
    split at hfix
    · cases hfix; exact ⟨rfl, rfl⟩
    · cases hfix
  have ec : s1.tcp.tls.cert = [] := by rw [hs1.2, TcpConfig.autofix_eq, TlsConfig.autofix_eq]; exact hown.1
  have ek : s1.tcp.tls.key = [] := by rw [hs1.2, TcpConfig.autofix_eq, TlsConfig.autofix_eq]; exact hown.2
  constructor
  · have h := ((C81_accepts_all x.tls s1.tcp.tls.cert s1.tcp.tls.key s1.tcp.tls.timeout s1.service.kind (by rw [hs1.1]; exact hk) es).1.2
      ⟨ec, ek⟩)
    have e : (s1.run x true es).1.map (·.served.id) = ((s1.run x true es).1.map (·.served)).map (·.id) := by simp
    rw [e, (run_ids x true es s1).1, h]
  · intro v hv
    obtain ⟨_, hm⟩ := run_mem x true es s1 v hv
    exact (C35_tls_never_dropped x.tls s1.tcp.tls.cert s1.tcp.tls.key s1.tcp.tls.timeout s1.service.kind true true es).2 ⟨ec, ek⟩ _ hm

/-- The default service under a root with a certificate and a key. -/
example : (defaultService.autofix (fun _ => false) { TcpConfig.default with tls := ⟨u!"c", u!"k", 0⟩ } .default).map
    (fun s1 => (s1.run sampleWorld true [.conn 7 ⟨none, true⟩]).1.map (fun v => (v.served.encrypted, v.requests.length))) =
    some [(false, 2)] := by
  decide +kernel

/-- **C127**, what holds: a certificate and a key given for a service itself are used on all its connections. -/
theorem C127_own_tls_partial {C K : Type} (pathExists : Str → Bool) (s s1 : ServiceConfig) (rtcp : TcpConfig) (rhttp : HttpConfig)
    (hown : s.tcp.tls.cert ≠ [] ∨ s.tcp.tls.key ≠ []) (hfix : s.autofix pathExists rtcp rhttp = some s1)
    (x : World C K) (bindOk : Bool) (es : List AcceptEvent) :
    ∀ v ∈ (s1.run x bindOk es).1, v.served.encrypted = true ∧ TlsLoads x.tls s.tcp.tls.cert s.tcp.tls.key := by
  have hs1 : s1.tcp = s.tcp.autofix (some rtcp) := by
    simp only [ServiceConfig.autofix] at hfix
    split at hfix
    · cases hfix; rfl
    · cases hfix
  have ec : s1.tcp.tls.cert = s.tcp.tls.cert := by rw [hs1, TcpConfig.autofix_eq, TlsConfig.autofix_eq]
  have ek : s1.tcp.tls.key = s.tcp.tls.key := by rw [hs1, TcpConfig.autofix_eq, TlsConfig.autofix_eq]
  intro v hv
  obtain ⟨_, hm⟩ := run_mem x bindOk es s1 v hv
  rw [ec, ek] at hm
  obtain ⟨h1, h2⟩ := (C35_tls_never_dropped x.tls s.tcp.tls.cert s.tcp.tls.key s1.tcp.tls.timeout s1.service.kind bindOk true es).1 hown
  refine ⟨(h2 _ hm).1, ?_⟩
  by_cases hl : TlsLoads x.tls s.tcp.tls.cert s.tcp.tls.key
  · exact hl
  · rw [h1 hl] at hm; cases hm

/-- A service with its own certificate and key. -/
example : ((({ defaultService with tcp := { defaultService.tcp with tls := ⟨u!"c", u!"k", 0⟩ } } : ServiceConfig).autofix (fun _ => false)
    .default .default).map (fun s1 => (s1.run sampleWorld true [.conn 7 ⟨some 3, true⟩]).1.map (·.served.encrypted))) = some [true] := by
  decide +kernel

end Httpd
