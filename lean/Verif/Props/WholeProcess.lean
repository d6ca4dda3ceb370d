import Verif.Spec.Whole
import Verif.Model.Whole
import Verif.Props.EndToEnd
import Verif.Props.Printing
/-! # C197, C198: from the command line to the answers, and to the threads -/

namespace Httpd
open Spec

/-- A service that is to be run is in the configuration once, with what the file says about it. -/
theorem run_in_force (U : Unicode) (p : Profile) (strict : Bool) (pathExists chdir : Str → Bool)
    (glob : Str → Option (List GlobFile)) (order : List (Str × ServiceConfig) → List (Str × ServiceConfig)) (horder : ∀ l, (order l).Perm l)
    (v : Toml) (c : Config) (h : loadFile U p strict pathExists chdir glob order (some v) = .value c)
    (hnd : ∀ ss, setting [u!"services", u!"Services"] 9 v = some (.table ss) → (ss.map (·.1)).Nodup) :
    (c.services.map (·.1)).Nodup ∧ (∀ k s, (k, s) ∈ c.services → ∃ sv, ToRun glob v k sv) ∧ c.services ≠ [] ∧
    ∀ k sv, ToRun glob v k sv → ∃ s, (k, s) ∈ c.services ∧
      Given (KindSays strict) .helloWorld (setting [u!"service", u!"Service"] 2 sv) s.service ∧
      LimitsInForce U p v sv s.http.limits.maxUrl s.http.limits.maxHeaderLine s.http.limits.maxHeadersCount ∧
      Given IsString [] (tcpSetting [u!"addr", u!"Addr", u!"address", u!"Address"] 0 sv) s.tcp.addr ∧
      (tcpSetting [u!"tls"] 1 sv = none → s.tcp.tls.cert = [] ∧ s.tcp.tls.key = []) ∧
      (SmallBuffers U p v sv → s.Allocates) ∧ s.name = trimUnicode k ∧ TlsInForce U p v sv s.tcp.tls.cert s.tcp.tls.key s.tcp.tls.timeout := by
  obtain ⟨f, pats, fss, added, hfile, hl, hall0, hg, hadds, hnd'⟩ := loaded hnd h
  obtain ⟨all, hall, os, hperm, hfix⟩ := load_effective pathExists f.config c pats order horder hl
  obtain ⟨hm1, hm2⟩ := mem_services hfile hg hadds
  rw [hall0] at hall
  have hall := Outcome.value.inj hall
  rw [hall] at hm1 hm2 hnd'
  have hkeys0 : c.services.map (·.1) = os.map (·.1) := by
    clear hl h hperm hall0
    generalize c.services = cs at hfix
    induction hfix with
    | nil => rfl
    | cons h1 _ ih => simp [h1.1, ih]
  -- what a service is before it is completed
  have raw : ∀ k sv, ToRun glob v k sv → ∃ s0 : ServiceConfig, (k, s0) ∈ os ∧
      Given (KindSays strict) .helloWorld (setting [u!"service", u!"Service"] 2 sv) s0.service ∧
      Given (TcpSays U p) ⟨[], ⟨[], [], 0⟩, 0, 0, 0⟩ (setting [u!"tcp", u!"Tcp"] 4 sv) s0.tcp ∧
      Given (HttpSays U p) ⟨none, 0, 0, 0, 0, 0, none, none⟩ (setting [u!"http", u!"Http"] 5 sv) s0.http := by
    intro k sv hk
    rcases hk with hk | ⟨hno, rfl, rfl⟩
    · obtain ⟨sx, s0, hqs, hmem, hsx⟩ := hm1 k sv hk
      have hlen : ¬ all.length < 1 := by
        cases all with
        | nil => cases hmem
        | cons => simp
      rw [if_neg hlen] at hperm
      refine ⟨s0, hperm.mem_iff.2 hmem, ?_⟩
      rcases hsx with rfl | rfl
      · exact ⟨hqs.service, hqs.tcp, hqs.http⟩
      · exact ⟨hqs.service, hqs.tcp, hqs.http⟩
    · have hlen : all.length < 1 := by
        cases all with
        | nil => simp
        | cons q _ =>
          obtain ⟨sv, _, ho, _⟩ := hm2 q.1 q.2 (.head _)
          exact absurd ho (hno _ _)
      rw [if_pos hlen] at hperm
      refine ⟨defaultService, hperm.mem_iff.2 (.head _), rfl, ?_, rfl⟩
      show TcpSays U p (.table [(u!"addr", .str u!"0.0.0.0:8080")]) _
      exact ⟨by simp [TomlSection, tcpSettings], rfl, rfl, rfl, rfl, rfl⟩
  refine ⟨?_, ?_, ?_, ?_⟩
  · rw [hkeys0]
    refine (hperm.map (·.1)).nodup_iff.2 ?_
    split
    · simp
    · exact hnd'
  · intro k s hks
    have : k ∈ os.map (·.1) := hkeys0 ▸ List.mem_map.2 ⟨_, hks, rfl⟩
    have := (hperm.map (·.1)).mem_iff.1 this
    split at this
    · rename_i hlen
      refine ⟨builtinService, .inr ⟨?_, by simpa using this, rfl⟩⟩
      intro k' sv' ho
      obtain ⟨_, s0, _, hmem, _⟩ := hm1 k' sv' ho
      cases all with
      | nil => cases hmem
      | cons => simp at hlen
    · obtain ⟨q, hq, rfl⟩ := List.mem_map.1 this
      obtain ⟨sv, _, ho, _⟩ := hm2 q.1 q.2 hq
      exact ⟨sv, .inl ho⟩
  · intro he
    rw [he] at hkeys0
    have : os = [] := List.map_eq_nil_iff.1 hkeys0.symm
    subst this
    have := hperm.length_eq
    split at this
    · simp at this
    · simp only [List.length_nil] at this; omega
  · intro k sv hk
    obtain ⟨s0, hmem, hkind0, htcp0, hhttp0⟩ := raw k sv hk
    obtain ⟨q, hq2, h1, hkind, htcp, hhttp, hname⟩ := Each2_left hfix (k, s0) hmem
    obtain ⟨k', s⟩ := q
    simp only at h1 hkind htcp hhttp hname
    subst h1
    have hlim : s.http.limits = { maxUrl := inForce s0.http.maxUrl f.config.http.maxUrl 8192, maxHeaderLine := inForce s0.http.maxLine f.config.http.maxLine 6144, maxHeadersCount := inForce s0.http.maxHeaders 0 128, maxBody := inForce s0.http.maxBody 0 10485760 } := by
      simp only [HttpConfig.limits, hhttp, HttpConfig.autofix_eq, Option.elim]
      rw [limit_inForce _ _ _ (by decide), limit_inForce _ _ _ (by decide), limit_inForce', limit_inForce']
    refine ⟨s, hq2, hkind ▸ hkind0, ?_, ?_, ?_, ?_, hname, ?_⟩
    · rw [hlim]
      exact ⟨_, _, _, _, _, given_bind hhttp0 (fun e => by rw [e]) (fun w hw => hw.maxUrl), given_bind hfile.http (fun e => by rw [e]) (fun w hw => hw.maxUrl), given_bind hhttp0 (fun e => by rw [e]) (fun w hw => hw.maxLine), given_bind hfile.http (fun e => by rw [e]) (fun w hw => hw.maxLine), given_bind hhttp0 (fun e => by rw [e]) (fun w hw => hw.maxHeaders), rfl, rfl, rfl⟩
    · rw [htcp, TcpConfig.autofix_eq]
      exact given_bind htcp0 (fun e => by rw [e]) (fun w hw => hw.addr)
    · intro htls
      have hno : s0.tcp.tls = ⟨[], [], 0⟩ := by
        have := given_bind (S := TlsSays U p) (db := ⟨[], [], 0⟩) (b := s0.tcp.tls) (names := [u!"tls"]) (i := 1) htcp0 (fun e => by rw [e]) (fun w hw => hw.tls)
        rw [tcpSetting] at htls
        rw [htls] at this
        exact this
      rw [htcp, TcpConfig.autofix_eq]
      simp [TlsConfig.autofix_eq, hno]
    · intro hsmall
      have b1 : ∀ own main, own ≤ 9223372036854775807 → main ≤ 9223372036854775807 → effectiveBuf own main ≤ isizeMax := by
        intro own main h1 h2
        unfold effectiveBuf isizeMax
        repeat' split
        all_goals omega
      have b2 : ∀ own, own ≤ 9223372036854775807 → effectiveBuf own 0 ≤ 9223372036854775807 := by
        intro own h1
        exact b1 own 0 h1 (by omega)
      rw [ServiceConfig.Allocates, htcp, TcpConfig.autofix_eq, TcpConfig.autofix_eq]
      simp only [Option.elim]
      refine ⟨b1 _ _ (hsmall _ _ (.head _) _ (.inl ?_)) (b2 _ (hsmall _ _ (.head _) _ (.inr ?_))),
        b1 _ _ (hsmall _ _ (.tail _ (.head _)) _ (.inl ?_)) (b2 _ (hsmall _ _ (.tail _ (.head _)) _ (.inr ?_)))⟩
      · exact given_bind htcp0 (fun e => by rw [e]) (fun w hw => hw.readBuf)
      · exact given_bind hfile.tcp (fun e => by rw [e]) (fun w hw => hw.readBuf)
      · exact given_bind htcp0 (fun e => by rw [e]) (fun w hw => hw.buf)
      · exact given_bind hfile.tcp (fun e => by rw [e]) (fun w hw => hw.buf)
    · have own := given_bind (S := TlsSays U p) (db := ⟨[], [], 0⟩) (b := s0.tcp.tls) (names := [u!"tls"]) (i := 1) htcp0 (fun e => by rw [e]) (fun w hw => hw.tls)
      have main := given_bind (S := TlsSays U p) (db := ⟨[], [], 0⟩) (b := f.config.tcp.tls) (names := [u!"tls"]) (i := 1) hfile.tcp (fun e => by rw [e]) (fun w hw => hw.tls)
      have time : ∀ o n, Given (IsDuration U p) 0 o n → n = 0 ∨ 1000000 ≤ n := by
        intro o n h
        cases o with
        | none => exact .inl h
        | some w => obtain ⟨_, ms, _, _, rfl⟩ := h; omega
      have ownTime := given_bind (names := [u!"timeout"]) (i := 2) own (fun e => by rw [e]) (fun w hw => hw.timeout)
      have mainTime := given_bind (names := [u!"timeout"]) (i := 2) main (fun e => by rw [e]) (fun w hw => hw.timeout)
      rw [htcp, TcpConfig.autofix_eq, TcpConfig.autofix_eq]
      simp only [TlsConfig.autofix_eq]
      refine ⟨s0.tcp.tls.timeout, f.config.tcp.tls.timeout, given_bind own (fun e => by rw [e]) (fun w hw => hw.cert), given_bind own (fun e => by rw [e]) (fun w hw => hw.key),
        ownTime, mainTime, ?_⟩
      have h1 := time _ _ ownTime
      have h2 := time _ _ mainTime
      simp only [Option.map, Option.elim, inForce]
      generalize s0.tcp.tls.timeout = a at *
      generalize f.config.tcp.tls.timeout = b at *
      by_cases ha : a = 0 <;> by_cases hb : b = 0 <;> simp only [ha, hb, ↓reduceIte, ne_eq, not_true, not_false_eq_true] <;> (repeat' split) <;> omega

/-- What a connection of a service gets. -/
theorem service_talks {C K : Type} (x : World C K) (s : ServiceConfig) (hal : s.Allocates) (reply : Nat → Bytes → Bytes) (stops : Bytes → Prop)
    (ha : Answers s.service reply stops) (bindOk : Bool) (es : List AcceptEvent) (w : Conn K) (hw : w ∈ (s.run x bindOk es).1)
    (hp : ∀ i, ∃ n, x.plan w.served.id i = .takes (n + 1)) :
    ∃ outs f, w.wire = outs.flatten ∧ fateOf w.ending = some f ∧
      Talk s.http.limits.maxUrl s.http.limits.maxHeaderLine s.http.limits.maxHeadersCount (afterOf (x.client w.served.id).fin) reply stops 0
        (x.client w.served.id).flat outs f := by
  obtain ⟨h1, _⟩ := run_mem x bindOk es s w hw
  obtain ⟨env, e1, _, e3, e4⟩ := connection_serve x s hal w.served hp
  have ht : ∃ g, fateOf (serve x.codec s.http.limits env (x.client w.served.id)).2 = some g ∧
      Talk s.http.limits.maxUrl s.http.limits.maxHeaderLine s.http.limits.maxHeadersCount (afterOf (x.client w.served.id).fin)
        reply stops 0 (x.client w.served.id).flat ((serve x.codec s.http.limits env (x.client w.served.id)).1.map (·.written)) g := by
    generalize s.service = kind at ha e1
    cases ha with
    | hello => exact C130_hello_whole _ _ env e1 _
    | files root => exact C130_fs_whole _ _ env e1 _
  obtain ⟨g, g1, g2⟩ := ht
  exact ⟨_, g, (congrArg Conn.wire h1).trans (by rw [e4]), by rw [congrArg Conn.ending h1, e3]; exact g1, g2⟩

/-- A service without TLS on a free address. -/
theorem plain_run {C K : Type} (x : World C K) (s : ServiceConfig) (hc : s.tcp.tls.cert = [] ∧ s.tcp.tls.key = []) (es : List AcceptEvent)
    (hk : s.service = .helloWorld ∨ ∃ root, s.service = .fileSystem root) :
    (s.run x true es).1.map (fun w => (w.served.id, w.served.encrypted)) = (accepted es).map (fun e => (e.1, false)) ∧
    ((s.run x true es).2 = .ok ↔ AcceptEvent.ctrlC ∈ es) ∧ ((s.run x true es).2 = .waiting ↔ AcceptEvent.ctrlC ∉ es) := by
  have hk2 : s.service.kind = .helloWorld ∨ s.service.kind = .fileSystem := by
    rcases hk with e | ⟨_, e⟩ <;> rw [e] <;> simp [ServiceSetting.kind]
  have hacc : runService x.tls s.tcp.tls.cert s.tcp.tls.key s.tcp.tls.timeout s.service.kind true true es =
      acceptLoop (none : Option C) s.tcp.tls.timeout true es := by
    rw [hc.1, hc.2]
    rcases hk2 with e | e <;> rw [e] <;> rfl
  have : (s.run x true es).1.map (fun v => (v.served.id, v.served.encrypted)) =
      ((s.run x true es).1.map (·.served)).map (fun d => (d.id, d.encrypted)) := by simp
  refine ⟨?_, ?_⟩
  · rw [this, (run_ids x true es s).1, hacc]
    simp [acceptLoop, plainLoop_served]
  · rw [(run_ids x true es s).2, hacc]
    exact acceptLoop_end _ _ es

/-- The start with an accepted file. -/
theorem start_serving (m : Machine) (p : Profile) (arg : Str) (harg : trimUnicode (fileArgument p arg) ≠ []) (v : Toml)
    (hread : m.read (fileArgument p arg) = some v)
    (hnd : ∀ ss, setting [u!"services", u!"Services"] 9 v = some (.table ss) → (ss.map (·.1)).Nodup)
    (horder : ∀ l, (m.order l).Perm l) (c : Config)
    (hload : loadFile m.U p m.strict m.pathExists m.chdir m.glob m.order (some v) = .value c)
    (hlog : ∃ k, c.initLogging m.U m.openOk m.midnight m.names m.setOk = .value k) :
    m.start p arg = .serving c.services ∧
    (m.perCore p arg = true ↔ (setting [u!"runtime", u!"Runtime"] 1 v).bind (setting [u!"per_core", u!"PerCore"] 1) = some (.bool true)) := by
  have hne : ¬ (trimUnicode (fileArgument p arg)).isEmpty = true := by simpa using harg
  constructor
  · obtain ⟨k, hk⟩ := hlog
    have hl : loadConfigFrom p m.pathExists arg (fun file => loadFile m.U p m.strict m.pathExists m.chdir m.glob m.order (m.read file)) = .value c := by
      simp only [loadConfigFrom, loadConfig, hne, Bool.not_false, ↓reduceIte, hread, hload]
    have hs := (run_in_force m.U p m.strict m.pathExists m.chdir m.glob m.order horder v c hload hnd).2.2.1
    have hlen : ¬ c.services.length < 1 := by
      cases hcs : c.services with
      | nil => exact absurd hcs hs
      | cons => simp
    simp only [Machine.start, hl, mainStart, hk, hlen, ↓reduceIte]
  · obtain ⟨f, hf, _⟩ := (loadFile_exact m.U p m.strict m.pathExists m.chdir m.glob m.order v c).1 hload
    have hs := (C141_file m.U p m.strict v f).1 hf
    have hrt := hs.runtime
    have : m.perCore p arg = decide (f.runtime.perCore = some true) := by
      simp only [Machine.perCore, hne, Bool.false_eq_true, ↓reduceIte, hread, hf]
    rw [this, decide_eq_true_iff]
    have hb := given_bind (S := IsSome IsBool) (db := none) (b := f.runtime.perCore) (names := [u!"per_core", u!"PerCore"]) (i := 1) hrt
      (fun e => by rw [e]) (fun w hw => hw.perCore)
    generalize (setting [u!"runtime", u!"Runtime"] 1 v).bind (setting [u!"per_core", u!"PerCore"] 1) = o at hb
    cases o with
    | none =>
      have hb : f.runtime.perCore = none := hb
      simp [hb]
    | some w =>
      obtain ⟨b, e1, e2⟩ := hb
      rw [e1, e2]
      simp

/-- Everything that is said by a process whose services have been started. -/
theorem printing_said {C K : Type} (x : ProcEnv C K) (pid : Str) (services : List (Str × ServiceConfig)) (hrt : x.runtime = .value ()) :
    ∃ rest, (mainPrinting x pid .all (.serving services)).said =
      (u!"httpd: load configuration ok, pid: " ++ pid) :: services.flatMap (fun q => (x.runPrinting .all q).1) ++ rest := by
  have hmap : (services.map (fun q => (q.1, x.runPrinting .all q))).flatMap (·.2.1) = services.flatMap (fun q => (x.runPrinting .all q).1) := by
    rw [List.flatMap_map]
  simp only [mainPrinting, Prints.all, Bool.not_true, Bool.false_eq_true, ↓reduceIte, hrt]
  simp only [Prints.all] at hmap
  rw [hmap]
  split
  · exact ⟨[], by simp⟩
  · exact ⟨_, rfl⟩

/-- **C197.** From the command line to the answers. The file named on the command line (in a debug build: `./httpd.toml`) is accepted, does not ask for per-core
mode, and the log can be started; the runtime and standard output work. Then the process runs the services that the file asks for, each once, and no
other. On each of their connections whose client takes what it is sent the bytes sent are those that `Talk` gives, for the kind and the limits that the
file says (if no buffer is larger than can be allocated); forwarding and upstream services serve nobody. A service without TLS whose address is free
is announced with its address and kind and serves everybody who connects. If all services are such, the process ends, with status 0, exactly if
Ctrl-C stops each of them. -/
theorem C197_process (m : Machine) (horder : ∀ l, (m.order l).Perm l) (p : Profile) (arg : Str)
    (harg : trimUnicode (fileArgument p arg) ≠ []) (v : Toml) (hread : m.read (fileArgument p arg) = some v)
    (hnd : ∀ ss, setting [u!"services", u!"Services"] 9 v = some (.table ss) → (ss.map (·.1)).Nodup) (c : Config)
    (hload : loadFile m.U p m.strict m.pathExists m.chdir m.glob m.order (some v) = .value c)
    (hlog : ∃ k, c.initLogging m.U m.openOk m.midnight m.names m.setOk = .value k)
    (hone : (setting [u!"runtime", u!"Runtime"] 1 v).bind (setting [u!"per_core", u!"PerCore"] 1) ≠ some (.bool true))
    {C K : Type} (x : ProcEnv C K) (hrt : x.runtime = .value ()) (hord : ∀ l, (x.order l).Perm l) (pid : Str) :
    ∃ o : ProcOutcome K, m.main p arg x pid .all = .oneRuntime o ∧
      (o.conns.map (·.1)).Nodup ∧ (∀ k, k ∈ o.conns.map (·.1) ↔ ∃ sv, ToRun m.glob v k sv) ∧
      (∀ k sv, ToRun m.glob v k sv → ∃ conns kind addr maxUrl maxLine maxHeaders, (k, conns) ∈ o.conns ∧
        Given (KindSays m.strict) .helloWorld (setting [u!"service", u!"Service"] 2 sv) kind ∧
        Given IsString [] (tcpSetting [u!"addr", u!"Addr", u!"address", u!"Address"] 0 sv) addr ∧
        LimitsInForce m.U p v sv maxUrl maxLine maxHeaders ∧
        (SmallBuffers m.U p v sv → ∀ reply stops, Answers kind reply stops → ∀ w ∈ conns,
          (∀ i, ∃ n, (x.world k).plan w.served.id i = .takes (n + 1)) →
          ∃ outs f, w.wire = outs.flatten ∧ fateOf w.ending = some f ∧
            Talk maxUrl maxLine maxHeaders (afterOf ((x.world k).client w.served.id).fin) reply stops 0
              ((x.world k).client w.served.id).flat outs f) ∧
        ((kind = .forward ∨ kind = .upstream) → conns = []) ∧
        (tcpSetting [u!"tls"] 1 sv = none → x.bindOk k = true →
          u!"httpd: listening @ " ++ addr ++ u!", serve as " ++ (match kind with
            | .helloWorld => u!"Hello world" | .fileSystem root => u!"Fs{" ++ root ++ u!"}" | .forward => u!"Forward" | .upstream => u!"Upstream") ∈ o.said ∧
          ((kind = .helloWorld ∨ ∃ root, kind = .fileSystem root) →
            conns.map (fun w => (w.served.id, w.served.encrypted)) = (accepted (x.events k)).map (fun e => (e.1, false))))) ∧
      ((∀ k sv, ToRun m.glob v k sv → x.bindOk k = true ∧ tcpSetting [u!"tls"] 1 sv = none ∧
          ∀ kind, Given (KindSays m.strict) .helloWorld (setting [u!"service", u!"Service"] 2 sv) kind →
            kind = .helloWorld ∨ ∃ root, kind = .fileSystem root) →
        (o.exit = .status 0 ↔ ∀ k sv, ToRun m.glob v k sv → AcceptEvent.ctrlC ∈ x.events k) ∧
        (o.exit = .running ↔ ∃ k sv, ToRun m.glob v k sv ∧ AcceptEvent.ctrlC ∉ x.events k)) := by
  obtain ⟨hst, hpc⟩ := start_serving m p arg harg v hread hnd horder c hload hlog
  have hpc : m.perCore p arg = false := by
    cases hb : m.perCore p arg with
    | false => rfl
    | true => exact absurd (hpc.1 hb) hone
  obtain ⟨hnodup, hsvc, _, hrun⟩ := run_in_force m.U p m.strict m.pathExists m.chdir m.glob m.order horder v c hload hnd
  have hconns := printing_conns x pid .all c.services
  rw [if_pos ⟨rfl, rfl, hrt⟩] at hconns
  have hkeys : (mainPrinting x pid .all (.serving c.services)).conns.map (·.1) = c.services.map (·.1) := by
    rw [hconns, List.map_map]
    rfl
  obtain ⟨rest, hsaid⟩ := printing_said x pid c.services hrt
  refine ⟨mainPrinting x pid .all (.serving c.services), by simp [Machine.main, hst, hpc], by rw [hkeys]; exact hnodup, ?_, ?_, ?_⟩
  · intro k
    rw [hkeys]
    constructor
    · intro hk
      obtain ⟨q, hq, rfl⟩ := List.mem_map.1 hk
      exact hsvc q.1 q.2 hq
    · rintro ⟨sv, hk⟩
      obtain ⟨s, hs, _⟩ := hrun k sv hk
      exact List.mem_map.2 ⟨_, hs, rfl⟩
  · intro k sv hk
    obtain ⟨s, hs, hkind, hlim, haddr, htls, hal, _⟩ := hrun k sv hk
    have hrp : (x.runPrinting .all (k, s)).2 = s.run (x.world k) (x.bindOk k) (x.events k) := runPrinting_ok _ _ _ _
    refine ⟨(s.run (x.world k) (x.bindOk k) (x.events k)).1, s.service, s.tcp.addr, _, _, _, ?_, hkind, haddr, hlim, ?_, ?_, ?_⟩
    · rw [hconns]
      exact List.mem_map.2 ⟨(k, s), hs, by rw [hrp]⟩
    · intro hsmall reply stops ha w hw hp
      exact service_talks (x.world k) s (hal hsmall) reply stops ha _ _ w hw hp
    · intro hpan
      have hk2 : s.service.kind = .forward ∨ s.service.kind = .upstream := by
        rcases hpan with e | e <;> rw [e] <;> simp [ServiceSetting.kind]
      have := (run_ids (x.world k) (x.bindOk k) (x.events k) s).1
      have h0 : (runService (x.world k).tls s.tcp.tls.cert s.tcp.tls.key s.tcp.tls.timeout s.service.kind (x.bindOk k) true (x.events k)).1 = [] := by
        rcases hk2 with e | e <;> rw [e] <;> unfold runService <;> (repeat' split) <;> simp_all
      rw [h0] at this
      exact List.map_eq_nil_iff.1 this
    · intro hno hbind
      have hc := htls hno
      refine ⟨?_, fun hkk => ?_⟩
      · rw [hsaid]
        refine List.mem_append_left _ (.tail _ (List.mem_flatMap.2 ⟨(k, s), hs, ?_⟩))
        have : (x.runPrinting .all (k, s)).1 = [s.logo false] := by
          simp [ProcEnv.runPrinting, ServiceConfig.runPrinting, hbind, tlsLoad, hc.1, hc.2, Prints.all]
        rw [this, List.mem_singleton, ServiceConfig.logo]
        cases s.service <;> simp [ServiceSetting.kindName]
      · rw [hbind]
        exact (plain_run (x.world k) s hc (x.events k) hkk).1
  · intro hall
    have hexit : (mainPrinting x pid .all (.serving c.services)).exit = (mainExit x (.serving c.services)).2 :=
      congrArg Prod.snd ((C194_announced_partial x pid).1 (.serving c.services))
    have h157 := (C157_all_ended_partial x hord (.serving c.services)).2.2 c.services rfl hrt
    have hor : (mainExit x (.serving c.services)).2 = .status 0 ∨ (mainExit x (.serving c.services)).2 = .running := by
      simp only [mainExit, hrt]
      split
      · exact .inr rfl
      · exact .inl rfl
    have hiff : (∀ q ∈ c.services, (q.2.run (x.world q.1) (x.bindOk q.1) (x.events q.1)).2 ≠ .waiting) ↔
        ∀ k sv, ToRun m.glob v k sv → AcceptEvent.ctrlC ∈ x.events k := by
      have one : ∀ k sv, ToRun m.glob v k sv → ∃ s, (k, s) ∈ c.services ∧
          ((s.run (x.world k) (x.bindOk k) (x.events k)).2 ≠ .waiting ↔ AcceptEvent.ctrlC ∈ x.events k) := by
        intro k sv hk
        obtain ⟨s, hs, hkind, _, _, htls, _⟩ := hrun k sv hk
        obtain ⟨a1, a2, a3⟩ := hall k sv hk
        refine ⟨s, hs, ?_⟩
        rw [a1]
        have := (plain_run (x.world k) s (htls a2) (x.events k) (a3 _ hkind)).2.2
        rw [ne_eq, this, Classical.not_not]
      constructor
      · intro h k sv hk
        obtain ⟨s, hs, hiff⟩ := one k sv hk
        exact hiff.1 (h (k, s) hs)
      · intro h q hq
        obtain ⟨sv, hk⟩ := hsvc q.1 q.2 hq
        obtain ⟨s, hs, hiff⟩ := one q.1 sv hk
        have : q.2 = s := eq_of_key_nodup hnodup hq hs
        rw [this]
        exact hiff.2 (h _ _ hk)
    rw [hexit]
    rw [hiff] at h157
    refine ⟨h157, ?_⟩
    constructor
    · intro hr
      refine Classical.byContradiction fun hne => ?_
      have : ∀ k sv, ToRun m.glob v k sv → AcceptEvent.ctrlC ∈ x.events k := by
        intro k sv hk
        exact Classical.byContradiction fun hc => hne ⟨k, sv, hk, hc⟩
      rw [h157.2 this] at hr
      cases hr
    · rintro ⟨k, sv, hk, hc⟩
      rcases hor with h0 | h0
      · exact absurd (h157.1 h0 k sv hk) hc
      · exact h0

/-- **C197**, for a file that is not accepted: nothing is served, nothing is said, and the status is not 0. -/
theorem C197_refused (m : Machine) (p : Profile) (arg : Str) (harg : trimUnicode (fileArgument p arg) ≠ [])
    (hno : ∀ c, loadFile m.U p m.strict m.pathExists m.chdir m.glob m.order (m.read (fileArgument p arg)) ≠ .value c)
    {C K : Type} (x : ProcEnv C K) (pid : Str) (pr : Prints) :
    ∃ code, code ≠ 0 ∧ m.main p arg x pid pr = .oneRuntime ⟨[], [], [], .status code⟩ := by
  have hne : ¬ (trimUnicode (fileArgument p arg)).isEmpty = true := by simpa using harg
  have hl : loadConfigFrom p m.pathExists arg (fun file => loadFile m.U p m.strict m.pathExists m.chdir m.glob m.order (m.read file)) =
      loadFile m.U p m.strict m.pathExists m.chdir m.glob m.order (m.read (fileArgument p arg)) := by
    simp only [loadConfigFrom, loadConfig, hne, Bool.not_false, ↓reduceIte]
  cases h : loadFile m.U p m.strict m.pathExists m.chdir m.glob m.order (m.read (fileArgument p arg)) with
  | value c => exact absurd h (hno c)
  | error =>
    refine ⟨1, by decide, ?_⟩
    simp only [Machine.main, Machine.start, hl, h, mainStart, mainPrinting]
  | panic =>
    refine ⟨101, by decide, ?_⟩
    simp only [Machine.main, Machine.start, hl, h, mainStart, mainPrinting]

/-- A machine with the file `v` and nothing else. -/
def machineWith (v : Toml) : Machine :=
  { U := asciiUnicode, strict := true, read := fun f => if f = u!"my.toml" then some v else none, pathExists := fun _ => false, chdir := fun _ => false,
    glob := fun _ => none, order := id, openOk := fun _ => true, midnight := fun _ => true, names := id, setOk := true }

/-- The file of C148, with one service; the process is stopped by Ctrl-C after one connection. -/
example : (match (machineWith limitsFile).main .release u!"my.toml" { sampleProc true with bindOk := fun _ => true } u!"17" .all with
    | .oneRuntime o => some (o.conns.map (fun c => (c.1, c.2.map (fun w => (w.served.id, w.requests.length)))), o.said, o.exit)
    | .perCore _ _ => none) =
    some ([(u!"a", [(7, 2)])], [u!"httpd: load configuration ok, pid: 17", u!"httpd: listening @ , serve as Hello world", u!"httpd: shutdown"], .status 0) := by
  decide +kernel

/-- An empty file: the service that is there if there is no other. -/
example : (match (machineWith (.table [])).main .release u!"my.toml" { sampleProc false with bindOk := fun _ => true } u!"17" .all with
    | .oneRuntime o => some (o.conns.map (fun c => (c.1, c.2.map (fun w => (w.served.id, w.requests.length)))), o.said, o.exit)
    | .perCore _ _ => none) =
    some ([(u!"helloworld", [(7, 2)])],
      [u!"httpd: load configuration ok, pid: 17", u!"httpd: listening @ 0.0.0.0:8080, serve as Hello world"], .running) := by
  decide +kernel

/-- A file that is not there. -/
example : (match (machineWith (.table [])).main .release u!"his.toml" (sampleProc false) u!"17" .all with
    | .oneRuntime o => some (o.said, o.exit)
    | .perCore _ _ => none) = some ([], .status 1) := by
  decide +kernel

/-! ## C198: the threads of per-core mode -/

theorem spawnThreads_spec (services : List (Str × ServiceConfig)) :
    (spawnThreads services).1 <+: services.map (fun q => u!"httpd.service:" ++ q.2.name) ∧
    ((spawnThreads services).2 = false ↔ ∀ q ∈ services, 0 ∉ q.2.name) ∧
    ((spawnThreads services).2 = false → (spawnThreads services).1 = services.map (fun q => u!"httpd.service:" ++ q.2.name)) ∧
    (∀ n ∈ (spawnThreads services).1, 0 ∉ n) := by
  have hpre : (0 : Nat) ∉ u!"httpd.service:" := by decide
  induction services with
  | nil => simp [spawnThreads]
  | cons q rest ih =>
    obtain ⟨h1, h2, h3, h4⟩ := ih
    by_cases h0 : (0 : Nat) ∈ q.2.name
    · have hc : (u!"httpd.service:" ++ q.2.name).contains 0 = true := by simp [h0]
      simp only [spawnThreads, hc, ↓reduceIte]
      exact ⟨List.nil_prefix, by simp [h0], by simp, by simp⟩
    · have hc : (u!"httpd.service:" ++ q.2.name).contains 0 = false := by
        rw [← Bool.not_eq_true, List.contains_iff_mem, List.mem_append]
        exact fun h => h.elim hpre h0
      simp only [spawnThreads, hc, Bool.false_eq_true, ↓reduceIte, List.map_cons]
      refine ⟨(List.prefix_cons_inj _).2 h1, ?_, fun h => by rw [h3 h], ?_⟩
      · rw [h2]
        simp [h0]
      · intro n hn
        rcases List.mem_cons.1 hn with rfl | hn
        · rw [List.mem_append]
          exact fun h => h.elim hpre h0
        · exact h4 n hn

/-- **C198**, negation for the code as written: with a service whose name has a NUL (which is a string in TOML like any other) the main
thread panics; that service gets no thread. If it is the only one then nobody is served at all. -/
theorem C198_nul_violated (m : Machine) (horder : ∀ l, (m.order l).Perm l) (p : Profile) (arg : Str)
    (harg : trimUnicode (fileArgument p arg) ≠ []) (v : Toml) (hread : m.read (fileArgument p arg) = some v)
    (hnd : ∀ ss, setting [u!"services", u!"Services"] 9 v = some (.table ss) → (ss.map (·.1)).Nodup) (c : Config)
    (hload : loadFile m.U p m.strict m.pathExists m.chdir m.glob m.order (some v) = .value c)
    (hlog : ∃ k, c.initLogging m.U m.openOk m.midnight m.names m.setOk = .value k)
    (hper : (setting [u!"runtime", u!"Runtime"] 1 v).bind (setting [u!"per_core", u!"PerCore"] 1) = some (.bool true))
    (k : Str) (sv : Toml) (hk : ToRun m.glob v k sv) (h0 : 0 ∈ trimUnicode k) {C K : Type} (x : ProcEnv C K) (pid : Str) :
    ∃ threads, m.main p arg x pid .all = .perCore threads true ∧ u!"httpd.service:" ++ trimUnicode k ∉ threads ∧
      ((∀ k' sv', ToRun m.glob v k' sv' → k' = k) → threads = []) := by
  obtain ⟨hst, hpc⟩ := start_serving m p arg harg v hread hnd horder c hload hlog
  obtain ⟨hnodup, hsvc, _, hrun⟩ := run_in_force m.U p m.strict m.pathExists m.chdir m.glob m.order horder v c hload hnd
  obtain ⟨s, hs, _, _, _, _, _, hname, _⟩ := hrun k sv hk
  obtain ⟨h1, h2, _, h4⟩ := spawnThreads_spec c.services
  have hp : (spawnThreads c.services).2 = true := by
    cases hb : (spawnThreads c.services).2 with
    | true => rfl
    | false => exact absurd (hname ▸ h0) (h2.1 hb (k, s) hs)
  refine ⟨(spawnThreads c.services).1, ?_, ?_, ?_⟩
  · simp only [Machine.main, hst, hpc.2 hper, Prints.all, Bool.and_true, ↓reduceIte, hp]
  · intro hm
    exact h4 _ hm (List.mem_append_right _ h0)
  · intro honly
    have hcs : ∀ q ∈ c.services, 0 ∈ q.2.name := by
      intro q hq
      obtain ⟨sv', hk'⟩ := hsvc q.1 q.2 hq
      have : q.2 = s := eq_of_key_nodup hnodup (show (k, q.2) ∈ c.services by rw [← honly _ _ hk']; exact hq) hs
      rw [this, hname]
      exact h0
    cases hcase : c.services with
    | nil => rfl
    | cons q rest =>
      have : 0 ∈ q.2.name := hcs q (by rw [hcase]; exact .head _)
      simp [spawnThreads, this]

/-- **C198**, what holds: in per-core mode, if no name has a NUL, one thread is started for each service that the file asks for, named after it, and the main
thread does not panic; in any case no other thread is started. Missing from C198: names with a NUL. -/
theorem C198_threads_partial (m : Machine) (horder : ∀ l, (m.order l).Perm l) (p : Profile) (arg : Str)
    (harg : trimUnicode (fileArgument p arg) ≠ []) (v : Toml) (hread : m.read (fileArgument p arg) = some v)
    (hnd : ∀ ss, setting [u!"services", u!"Services"] 9 v = some (.table ss) → (ss.map (·.1)).Nodup) (c : Config)
    (hload : loadFile m.U p m.strict m.pathExists m.chdir m.glob m.order (some v) = .value c)
    (hlog : ∃ k, c.initLogging m.U m.openOk m.midnight m.names m.setOk = .value k)
    (hper : (setting [u!"runtime", u!"Runtime"] 1 v).bind (setting [u!"per_core", u!"PerCore"] 1) = some (.bool true))
    {C K : Type} (x : ProcEnv C K) (pid : Str) :
    ∃ (ks : List Str) (threads : List Str) (panicked : Bool), m.main p arg x pid .all = .perCore threads panicked ∧ ks.Nodup ∧
      (∀ k, k ∈ ks ↔ ∃ sv, ToRun m.glob v k sv) ∧ threads <+: ks.map (fun k => u!"httpd.service:" ++ trimUnicode k) ∧
      (panicked = false ↔ ∀ k ∈ ks, 0 ∉ trimUnicode k) ∧
      (panicked = false → threads = ks.map (fun k => u!"httpd.service:" ++ trimUnicode k)) := by
  obtain ⟨hst, hpc⟩ := start_serving m p arg harg v hread hnd horder c hload hlog
  obtain ⟨hnodup, hsvc, _, hrun⟩ := run_in_force m.U p m.strict m.pathExists m.chdir m.glob m.order horder v c hload hnd
  obtain ⟨h1, h2, h3, _⟩ := spawnThreads_spec c.services
  have hname : ∀ q ∈ c.services, q.2.name = trimUnicode q.1 := by
    intro q hq
    obtain ⟨sv, hk⟩ := hsvc q.1 q.2 hq
    obtain ⟨s, hs, _, _, _, _, _, hn, _⟩ := hrun q.1 sv hk
    rw [eq_of_key_nodup hnodup hq hs]
    exact hn
  have hmap : c.services.map (fun q => u!"httpd.service:" ++ q.2.name) =
      (c.services.map (·.1)).map (fun k => u!"httpd.service:" ++ trimUnicode k) := by
    rw [List.map_map]
    exact List.map_congr_left fun q hq => by simp [hname q hq]
  refine ⟨c.services.map (·.1), (spawnThreads c.services).1, (spawnThreads c.services).2, ?_, hnodup, ?_, hmap ▸ h1, ?_, fun h => (h3 h).trans hmap⟩
  · simp only [Machine.main, hst, hpc.2 hper, Prints.all, Bool.and_true, ↓reduceIte]
  · intro k
    constructor
    · intro hk
      obtain ⟨q, hq, rfl⟩ := List.mem_map.1 hk
      exact hsvc q.1 q.2 hq
    · rintro ⟨sv, hk⟩
      obtain ⟨s, hs, _⟩ := hrun k sv hk
      exact List.mem_map.2 ⟨_, hs, rfl⟩
  · rw [h2]
    constructor
    · intro h k hk
      obtain ⟨q, hq, rfl⟩ := List.mem_map.1 hk
      rw [← hname q hq]
      exact h q hq
    · intro h q hq
      rw [hname q hq]
      exact h _ (List.mem_map.2 ⟨q, hq, rfl⟩)

/-- **C198**, negation for the code as written: if the name or the number of the process cannot be printed (standard output is a pipe that nobody reads), no
service gets a thread, in per-core mode as in the other, whatever the file says; the status is not 0. -/
theorem C198_broken_pipe_violated (m : Machine) (p : Profile) (arg : Str) {C K : Type} (x : ProcEnv C K) (pid : Str) (pr : Prints)
    (hpr : pr.name = false ∨ pr.pid = false) :
    ∃ exit, m.main p arg x pid pr = .oneRuntime ⟨[], [], [], exit⟩ ∧ exit ≠ .status 0 ∧
      (∀ services, m.start p arg = .serving services → exit = .status 101) := by
  have hoff : (pr.name && pr.pid) = false := by rcases hpr with h | h <;> simp [h]
  have hp : ∀ st, ∃ exit, mainPrinting x pid pr st = ⟨[], [], [], exit⟩ ∧ exit ≠ .status 0 ∧ (∀ services, st = .serving services → exit = .status 101) := by
    intro st
    cases st with
    | failed => exact ⟨_, rfl, by simp, by simp⟩
    | panicked => exact ⟨_, rfl, by simp, by simp⟩
    | hung => exact ⟨_, rfl, by simp, by simp⟩
    | noService =>
      refine ⟨.status 101, ?_, by simp, by simp⟩
      simp only [mainPrinting]
      cases h1 : pr.name <;> cases h2 : pr.pid <;> simp_all
    | serving services =>
      refine ⟨.status 101, ?_, by simp, by simp⟩
      simp only [mainPrinting]
      cases h1 : pr.name <;> cases h2 : pr.pid <;> simp_all
  unfold Machine.main
  generalize m.start p arg = st
  obtain ⟨exit, h1, h2⟩ := hp st
  refine ⟨exit, ?_, h2⟩
  cases st <;> simp [hoff, h1]

/-- Per-core mode and two services, the first of which has a name with a NUL or not. -/
def coresFile (k : Str) : Toml :=
  .table [(u!"runtime", .table [(u!"per_core", .bool true)]), (u!"services", .table [(k, .table []), (u!"b", .table [])])]

example : (match (machineWith (coresFile [97, 0])).main .release u!"my.toml" (sampleProc true) u!"17" .all with
      | .perCore threads panicked => some (threads, panicked)
      | .oneRuntime _ => none) = some ([], true) ∧
    (match (machineWith (coresFile u!"a")).main .release u!"my.toml" (sampleProc true) u!"17" .all with
      | .perCore threads panicked => some (threads, panicked)
      | .oneRuntime _ => none) = some ([u!"httpd.service:a", u!"httpd.service:b"], false) := by
  decide +kernel

/-- The same without the first line. -/
example : (match (machineWith (coresFile u!"a")).main .release u!"my.toml" (sampleProc true) u!"17" { Prints.all with name := false } with
    | .perCore _ _ => none
    | .oneRuntime o => some (o.said, o.conns.length, o.exit)) = some ([], 0, .status 101) := by
  decide +kernel

end Httpd
