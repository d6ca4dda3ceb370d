import Verif.Spec.Effective
import Verif.Props.ConfigUse
import Verif.Props.Include
import Verif.Props.Grammar
/-!
# C148: from the configuration file to the bytes on the wire
-/

namespace Httpd

open Spec

/-- What a service answers to a request whose version is the given word, as the `j`-th on its connection. -/
inductive Answers : ServiceSetting → (Nat → Bytes → Bytes) → (Bytes → Prop) → Prop
  | hello : Answers .helloWorld (fun j v => helloText v j) helloCloses
  | files (root : Str) : Answers (.fileSystem root) (fun _ _ => fsText) (fun _ => False)

theorem load_effective (pathExists : Str → Bool) (config c : Config) (patterns : List (Option (List GlobItem)))
    (order : List (Str × ServiceConfig) → List (Str × ServiceConfig)) (horder : ∀ l, (order l).Perm l)
    (h : Config.load pathExists (some config) true patterns order = .value c) :
    ∃ all, includeAll patterns config.services = .value all ∧ ∃ ss, ss.Perm (if all.length < 1 then [(u!"helloworld", defaultService)] else all) ∧
      Each2 (fun p q => q.1 = p.1 ∧ q.2.service = p.2.service ∧ q.2.tcp = p.2.tcp.autofix (some (config.tcp.autofix none)) ∧
        q.2.http = p.2.http.autofix (some (config.http.autofix none)) ∧ q.2.name = trimUnicode p.1) ss c.services := by
  simp only [Config.load, Bool.not_true, Bool.false_eq_true, ↓reduceIte] at h
  cases hi : includeAll patterns config.services with
  | panic => rw [hi] at h; cases h
  | error => rw [hi] at h; cases h
  | value all =>
    rw [hi] at h
    simp only at h
    generalize hss : (if all.length < 1 then [(u!"helloworld", defaultService)] else all) = ss at h
    refine ⟨all, rfl, order ss, by rw [hss]; exact horder ss, ?_⟩
    split at h
    · cases h
    · rename_i c' hc'
      cases h
      obtain ⟨_, _, _, _, _, hf⟩ := Config.autofix_spec pathExists _ c hc'
      have hk := fixServices_spec _ _ _ _ _ _ _ hf
      have k1 := hk.1
      have k2 := hk.2.1
      have k6 := hk.2.2.2.2.2
      simp only at k1 k2 k6
      generalize c.services = cs at k1 k2 k6
      clear hc' hss hi hf hk
      generalize order ss = os at k1 k2 k6
      induction k6 with
      | nil => exact .nil
      | cons h1 _ ih =>
        simp only [List.map_cons, List.cons.injEq] at k1 k2
        exact .cons ⟨k1.1, h1.2.1, h1.2.2.2.1, h1.2.2.2.2.1, k2.1⟩ (ih k1.2 k2.2)

theorem limit_inForce (own main d : Nat) (hd : 0 < d) :
    effectiveLimit (if own = 0 then effectiveLimit (if main = 0 then 0 else main) d else own) d = inForce own main d := by
  unfold effectiveLimit inForce
  repeat' split
  all_goals omega

theorem limit_inForce' (own d : Nat) : effectiveLimit own d = inForce own 0 d := by
  unfold effectiveLimit inForce
  repeat' split
  all_goals omega

theorem given_bind {α β : Type} {R : Toml → α → Prop} {S : Toml → β → Prop} {a : α} {da : α} {b db : β} {o : Option Toml} {names : List Str} {i : Nat}
    (h : Given R da o a) (h0 : a = da → b = db) (h1 : ∀ v, R v a → Given S db (setting names i v) b) :
    Given S db (o.bind (setting names i)) b := by
  cases o with
  | none => exact h0 h
  | some v => exact h1 v h

/-- **C148.** From the configuration file to the bytes on the wire. Let the file `v` be accepted, and let `sv` be a service of it or
of a file it includes. Then there is exactly one service under that name; the limits for what it reads are those that the file says. If it is a
hello-world or file-system service, then on each of its connections whose client takes what it is sent - whatever bytes come, however
cut - the server sends the answers that `Talk` gives for these bytes under these limits, one after the other and nothing else, and the
connection ends as `Talk` says, provided its buffers can be allocated (they can if no section `tcp` is given; if not, see
`C126_too_large_violated`). A service of the other two kinds serves nobody. Without a certificate and a key in `tcp.tls` everybody
who connects is served. -/
theorem C148_file_to_wire (U : Unicode) (p : Profile) (strict : Bool) (pathExists chdir : Str → Bool)
    (glob : Str → Option (List GlobFile)) (order : List (Str × ServiceConfig) → List (Str × ServiceConfig)) (horder : ∀ l, (order l).Perm l)
    (v : Toml) (c : Config) (h : loadFile U p strict pathExists chdir glob order (some v) = .value c)
    (hnd : ∀ ss, setting [u!"services", u!"Services"] 9 v = some (.table ss) → (ss.map (·.1)).Nodup)
    (k : Str) (sv : Toml) (hk : Offers glob v k sv) :
    ∃ s kind maxUrl maxLine maxHeaders, (∀ s', (k, s') ∈ c.services ↔ s' = s) ∧
      Given (KindSays strict) .helloWorld (setting [u!"service", u!"Service"] 2 sv) kind ∧
      LimitsInForce U p v sv maxUrl maxLine maxHeaders ∧
      (setting [u!"tcp", u!"Tcp"] 4 sv = none → setting [u!"tcp", u!"Tcp"] 5 v = none → s.Allocates) ∧
      (s.Allocates → ∀ reply stops, Answers kind reply stops →
        ∀ {C K : Type} (x : World C K) (bindOk : Bool) (es : List AcceptEvent), ∀ w ∈ (s.run x bindOk es).1,
          (∀ i, ∃ n, x.plan w.served.id i = .takes (n + 1)) →
          ∃ outs f, w.wire = outs.flatten ∧ fateOf w.ending = some f ∧
            Talk maxUrl maxLine maxHeaders (afterOf (x.client w.served.id).fin) reply stops 0 (x.client w.served.id).flat outs f) ∧
      ((kind = .forward ∨ kind = .upstream) → ∀ {C K : Type} (x : World C K) (bindOk : Bool) (es : List AcceptEvent),
        (s.run x bindOk es).1 = []) ∧
      ((kind = .helloWorld ∨ ∃ root, kind = .fileSystem root) →
        (setting [u!"tcp", u!"Tcp"] 4 sv).bind (setting [u!"tls"] 1) = none → ∀ {C K : Type} (x : World C K) (es : List AcceptEvent),
          (s.run x true es).1.map (fun w => (w.served.id, w.served.encrypted)) = (accepted es).map (fun e => (e.1, false))) := by
  obtain ⟨f, pats, fss, added, hfile, hl, hall0, hg, hadds, hnd'⟩ := loaded hnd h
  obtain ⟨sx, s0, hqs, hmem, hsx⟩ := (mem_services hfile hg hadds).1 k sv hk
  obtain ⟨all, hall, os, hperm, hfix⟩ := load_effective pathExists f.config c pats order horder hl
  rw [hall0] at hall
  have hall := Outcome.value.inj hall
  rw [hall] at hmem hnd'
  have hsvc0 : s0.service = sx.service := by rcases hsx with rfl | rfl <;> rfl
  have hhttp0 : s0.http = sx.http := by rcases hsx with rfl | rfl <;> rfl
  have htcp0 : s0.tcp = sx.tcp := by rcases hsx with rfl | rfl <;> rfl
  have hlen : ¬ all.length < 1 := by
    cases all with
    | nil => cases hmem
    | cons => simp
  rw [if_neg hlen] at hperm
  obtain ⟨q, hq2, h1, hkind, htcp, hhttp, _⟩ := Each2_left hfix (k, s0) (hperm.mem_iff.2 hmem)
  obtain ⟨k', s⟩ := q
  simp only at h1 hkind htcp hhttp
  subst h1
  have hkeys : (c.services.map (·.1)).Nodup := by
    have : c.services.map (·.1) = os.map (·.1) := by
      clear hq2 hall hl h hperm hall0
      generalize c.services = cs at hfix
      induction hfix with
      | nil => rfl
      | cons h1 _ ih => simp [h1.1, ih]
    rw [this]
    exact (hperm.map (·.1)).nodup_iff.2 hnd'
  have hlim : s.http.limits = { maxUrl := inForce s0.http.maxUrl f.config.http.maxUrl 8192, maxHeaderLine := inForce s0.http.maxLine f.config.http.maxLine 6144, maxHeadersCount := inForce s0.http.maxHeaders 0 128, maxBody := inForce s0.http.maxBody 0 10485760 } := by
    simp only [HttpConfig.limits, hhttp, HttpConfig.autofix_eq, Option.elim]
    rw [limit_inForce _ _ _ (by decide), limit_inForce _ _ _ (by decide), limit_inForce', limit_inForce']
  refine ⟨s, s0.service, inForce s0.http.maxUrl f.config.http.maxUrl 8192, inForce s0.http.maxLine f.config.http.maxLine 6144,
    inForce s0.http.maxHeaders 0 128, fun s' => ⟨fun hs' => eq_of_key_nodup hkeys hs' hq2, fun e => e ▸ hq2⟩, (hsvc0 ▸ hqs.service), ?_, ?_, ?_, ?_, ?_⟩
  · refine ⟨_, _, _, _, _, given_bind (hhttp0 ▸ hqs.http) (fun e => by rw [e]) (fun w hw => hw.maxUrl), given_bind hfile.http (fun e => by rw [e]) (fun w hw => hw.maxUrl), given_bind (hhttp0 ▸ hqs.http) (fun e => by rw [e]) (fun w hw => hw.maxLine), given_bind hfile.http (fun e => by rw [e]) (fun w hw => hw.maxLine), given_bind (hhttp0 ▸ hqs.http) (fun e => by rw [e]) (fun w hw => hw.maxHeaders), rfl, rfl, rfl⟩
  · intro h1 h2
    have e1 := htcp0 ▸ hqs.tcp
    have e2 := hfile.tcp
    rw [h1] at e1
    rw [h2] at e2
    have e1' : s0.tcp = ⟨[], ⟨[], [], 0⟩, 0, 0, 0⟩ := e1
    have e2' : f.config.tcp = ⟨[], ⟨[], [], 0⟩, 0, 0, 0⟩ := e2
    rw [ServiceConfig.Allocates, htcp, e1', e2']
    decide
  · intro hal reply stops ha C K x bindOk es w hw hp
    obtain ⟨h1, _⟩ := run_mem x bindOk es s w hw
    obtain ⟨env, e1, _, e3, e4⟩ := connection_serve x s hal w.served hp
    rw [hkind] at e1
    have ht : ∃ g, fateOf (serve x.codec s.http.limits env (x.client w.served.id)).2 = some g ∧
        Talk s.http.limits.maxUrl s.http.limits.maxHeaderLine s.http.limits.maxHeadersCount (afterOf (x.client w.served.id).fin)
          reply stops 0 (x.client w.served.id).flat ((serve x.codec s.http.limits env (x.client w.served.id)).1.map (·.written)) g := by
      generalize s0.service = kind at ha e1
      cases ha with
      | hello => exact C130_hello_whole _ _ env e1 _
      | files root => exact C130_fs_whole _ _ env e1 _
    obtain ⟨g, g1, g2⟩ := ht
    rw [hlim] at g2
    exact ⟨_, g, (congrArg Conn.wire h1).trans (by rw [e4]), by rw [congrArg Conn.ending h1, e3]; exact g1, by rw [hlim]; exact g2⟩
  · intro hpan C K x bindOk es
    have hk2 : s.service.kind = .forward ∨ s.service.kind = .upstream := by
      rw [hkind]; rcases hpan with e | e <;> rw [e] <;> simp [ServiceSetting.kind]
    have := (run_ids x bindOk es s).1
    have h0 : (runService x.tls s.tcp.tls.cert s.tcp.tls.key s.tcp.tls.timeout s.service.kind bindOk true es).1 = [] := by
      rcases hk2 with e | e <;> rw [e] <;> unfold runService <;> (repeat' split) <;> simp_all
    rw [h0] at this
    exact List.map_eq_nil_iff.1 this
  · intro hok htls C K x es
    have hno : s0.tcp.tls = ⟨[], [], 0⟩ := by
      have := given_bind (S := TlsSays U p) (db := ⟨[], [], 0⟩) (b := s0.tcp.tls) (names := [u!"tls"]) (i := 1) (htcp0 ▸ hqs.tcp) (fun e => by rw [e]) (fun w hw => hw.tls)
      rw [htls] at this
      exact this
    have hc : s.tcp.tls.cert = [] ∧ s.tcp.tls.key = [] := by
      rw [htcp, TcpConfig.autofix_eq]
      simp [TlsConfig.autofix_eq, hno]
    have hk2 : s.service.kind = .helloWorld ∨ s.service.kind = .fileSystem := by
      rw [hkind]; rcases hok with e | ⟨_, e⟩ <;> rw [e] <;> simp [ServiceSetting.kind]
    have hrun : runService x.tls s.tcp.tls.cert s.tcp.tls.key s.tcp.tls.timeout s.service.kind true true es = plainLoop es := by
      rw [hc.1, hc.2]
      rcases hk2 with e | e <;> rw [e] <;> rfl
    have : (s.run x true es).1.map (fun v => (v.served.id, v.served.encrypted)) =
        ((s.run x true es).1.map (·.served)).map (fun d => (d.id, d.encrypted)) := by simp
    rw [this, (run_ids x true es s).1, hrun, plainLoop_served]
    simp

/-- A file with a limit of its own and one of the main section. -/
def limitsFile : Toml :=
  .table [(u!"http", .table [(u!"max_url_size", .str u!"1kb"), (u!"max_headers_count", .int 7)]),
    (u!"services", .table [(u!"a", .table [(u!"http", .table [(u!"max_header_line_size", .str u!"512b")])])])]

example : LimitsInForce asciiUnicode .release limitsFile (.table [(u!"http", .table [(u!"max_header_line_size", .str u!"512b")])]) 1024 512 128 :=
  ⟨0, 1024, 512, 0, 0, rfl, ⟨_, rfl, by decide +kernel⟩, ⟨_, rfl, by decide +kernel⟩, rfl, rfl, by decide, by decide, by decide⟩

example : (match loadFile asciiUnicode .release true (fun _ => false) (fun _ => false) (fun _ => none) id (some limitsFile) with
    | .value c => c.services.map (fun s => (s.1, s.2.http.maxUrl, s.2.http.maxLine, s.2.http.maxHeaders,
        (s.2.run sampleWorld true [.conn 7 ⟨none, true⟩]).1.map (·.requests.length)))
    | _ => []) = [(u!"a", 1024, 512, 128, [2])] := by
  decide +kernel

end Httpd
