import Verif.Props.ConfigFirst
import Verif.Props.System
import Verif.Props.ConfigSize
/-!
# C142-C147: how a configuration file is used
-/

namespace Httpd

open Spec

/-! ## Entries nobody knows -/

theorem pick_ignore (names : List Str) (a b : List (Str × Toml)) (k : Str) (w : Toml) (h : k ∉ names) :
    pick names (a ++ (k, w) :: b) = pick names (a ++ b) := by
  have : (a ++ (k, w) :: b).filter (fun e => names.contains e.1) = (a ++ b).filter (fun e => names.contains e.1) := by
    simp [List.filter_append, h]
  unfold pick
  rw [this]

theorem fieldsFrom_ignore (fs : List (List Str)) (i : Nat) (a b : List (Str × Toml)) (k : Str) (w : Toml) (h : k ∉ fs.flatten) :
    fieldsFrom (.table (a ++ (k, w) :: b)) fs i = fieldsFrom (.table (a ++ b)) fs i := by
  induction fs generalizing i with
  | nil => rfl
  | cons f fs ih =>
    simp only [List.flatten_cons, List.mem_append, not_or] at h
    simp only [fieldsFrom, pick_ignore f a b k w h.1, ih _ h.2]

theorem firstMistake_ignore {α : Type} (fs : List (List Str)) (make : List (Option Toml) → Outcome α) (a b : List (Str × Toml)) (k : Str) (w : Toml)
    (h : k ∉ fs.flatten) (seen : List Nat) : firstMistake fs make (a ++ (k, w) :: b) seen = firstMistake fs make (a ++ b) seen := by
  induction a generalizing seen with
  | nil =>
    have : fs.findIdx? (·.contains k) = none := by
      rw [List.findIdx?_eq_none_iff]
      intro f hf
      simp only [List.contains_eq_mem, decide_eq_false_iff_not]
      exact fun hk => h (List.mem_flatten.2 ⟨f, hf, hk⟩)
    simp only [List.nil_append, firstMistake, this]
  | cons e a ih =>
    obtain ⟨k', x⟩ := e
    simp only [List.cons_append, firstMistake, ih]

theorem deStruct_ignore {α : Type} (fs gs : List (List Str)) (make : List (Option Toml) → Outcome α) (a b : List (Str × Toml)) (k : Str)
    (w : Toml) (hg : (fs.flatten.all (fun x => gs.flatten.contains x)) = true) (h : k ∉ gs.flatten) :
    deStruct fs make (.table (a ++ (k, w) :: b)) = deStruct fs make (.table (a ++ b)) := by
  have : k ∉ fs.flatten := by
    intro hk
    rw [List.all_eq_true] at hg
    exact h (by simpa using hg k hk)
  simp only [deStruct, fieldsFrom_ignore fs 0 a b k w this, firstMistake_ignore fs make a b k w this]

/-- **C142**, negation for the code as written: an entry that is not a setting - a misspelled one, say - changes nothing, wherever it
stands. -/
theorem C142_unknown_violated (U : Unicode) (p : Profile) (strict : Bool) (a b : List (Str × Toml)) (k : Str) (w : Toml) :
    (k ∉ fileSettings.flatten → ConfigFile.de U p strict (.table (a ++ (k, w) :: b)) = ConfigFile.de U p strict (.table (a ++ b))) ∧
    (k ∉ serviceSettings.flatten → ServiceConfig.de U p strict (.table (a ++ (k, w) :: b)) = ServiceConfig.de U p strict (.table (a ++ b))) ∧
    (k ∉ tcpSettings.flatten → TcpConfig.de U p (.table (a ++ (k, w) :: b)) = TcpConfig.de U p (.table (a ++ b))) ∧
    (k ∉ tlsSettings.flatten → TlsConfig.de U p (.table (a ++ (k, w) :: b)) = TlsConfig.de U p (.table (a ++ b))) ∧
    (k ∉ httpSettings.flatten → HttpConfig.de U p (.table (a ++ (k, w) :: b)) = HttpConfig.de U p (.table (a ++ b))) ∧
    (k ∉ loggingSettings.flatten →
      LoggingConfig.de U p strict (.table (a ++ (k, w) :: b)) = LoggingConfig.de U p strict (.table (a ++ b))) ∧
    (k ∉ runtimeSettings.flatten → RuntimeConfig.de (.table (a ++ (k, w) :: b)) = RuntimeConfig.de (.table (a ++ b))) :=
  ⟨deStruct_ignore _ _ _ a b k w (by decide +kernel), deStruct_ignore _ _ _ a b k w (by decide +kernel),
    deStruct_ignore _ _ _ a b k w (by decide +kernel), deStruct_ignore _ _ _ a b k w (by decide +kernel),
    deStruct_ignore _ _ _ a b k w (by decide +kernel), deStruct_ignore _ _ _ a b k w (by decide +kernel),
    deStruct_ignore _ _ _ a b k w (by decide +kernel)⟩

/-- `[service.web]` instead of `[services.web]`: hello world for everybody on port 8080. -/
def misspelled : Toml :=
  .table [(u!"service", .table [(u!"web", .table [(u!"tcp", .table [(u!"addr", .str u!"127.0.0.1:1")])])])]

/-- The names and addresses of the services of a loaded configuration. -/
def addresses : Outcome Config → Option (List (Str × Str))
  | .value c => some (c.services.map (fun s => (s.1, s.2.tcp.addr)))
  | _ => none

example : addresses (loadFile asciiUnicode .release true (fun _ => true) (fun _ => true) (fun _ => none) id (some misspelled)) =
    some [(u!"helloworld", u!"0.0.0.0:8080")] := by
  decide +kernel

theorem Each2_keys {α β : Type} {R : α → β → Prop} {l : List (Str × α)} {m : List (Str × β)}
    (h : Each2 (fun e a => e.1 = a.1 ∧ R e.2 a.2) l m) : l.map (·.1) = m.map (·.1) := by
  induction h with
  | nil => rfl
  | cons h1 _ ih => simp [h1.1, ih]

/-- An entry of a section is the value of its setting. -/
theorem setting_entry {settings : List (List Str)} {es : List (Str × Toml)} (h : TomlSection settings (.table es)) {k : Str} {v : Toml}
    (hm : (k, v) ∈ es) (names : List Str) (hn : names ∈ settings) (hk : k ∈ names) (i : Nat) : setting names i (.table es) = some v := by
  have h1 := h names hn
  have hf : es.find? (fun e => names.contains e.1) = (es.filter (fun e => names.contains e.1)).head? := by
    rw [List.head?_filter]
  have h2 : (k, v) ∈ es.filter (fun e => names.contains e.1) := by simp [hm, hk]
  simp only [setting, hf]
  generalize es.filter (fun e => names.contains e.1) = l at h1 h2
  match l, h1, h2 with
  | [e], _, h2 => simp only [List.mem_singleton] at h2; subst h2; rfl

/-- **C142**, what holds: a setting given twice, under one name or two, is refused; so is a size or duration that is not a string, a
text that is not a string, and a number out of range. (Whether a panic can take the place of the refusal: C147.) -/
theorem C142_known_partial (U : Unicode) (p : Profile) (strict : Bool) (es : List (Str × Toml)) (c : ConfigFile)
    (h : ConfigFile.de U p strict (.table es) = .value c) :
    (∀ names ∈ fileSettings, (es.filter (fun e => names.contains e.1)).length ≤ 1) ∧
    ∀ k v, (k, v) ∈ es →
      (k ∈ [u!"workdir", u!"Workdir", u!"logpath", u!"log_path", u!"LogPath", u!"loglevel", u!"log_level", u!"LogLevel", u!"include",
        u!"Include"] → ∃ s, v = .str s) ∧
      (k ∈ [u!"services", u!"Services"] → ∃ ss, v = .table ss ∧ ss.map (·.1) = c.config.services.map (·.1)) ∧
      (k ∈ [u!"http", u!"Http"] → HttpSays U p v c.config.http ∧ ∀ hs, v = .table hs →
        ∀ k' v', (k', v') ∈ hs →
          (k' ∈ [u!"max_url_size", u!"MaxUrlSize", u!"max_header_line_size", u!"MaxHeaderLineSize", u!"max_body_size", u!"MaxBodySize",
            u!"idle_timeout", u!"IdleTimeout"] → ∃ s, v' = .str s) ∧
          (k' ∈ [u!"max_headers_count", u!"MaxHeadersCount"] → ∃ n : Nat, v' = .int n ∧ n < 2 ^ 32)) ∧
      (k ∈ [u!"tcp", u!"Tcp"] → TcpSays U p v c.config.tcp) := by
  have hf := (C141_file U p strict _ c).1 h
  refine ⟨hf.sect, ?_⟩
  intro k v hm
  have get : ∀ {α : Type} {R : Toml → α → Prop} {d a : α} {names : List Str} {i : Nat}, names ∈ fileSettings → k ∈ names →
      Given R d (setting names i (.table es)) a → R v a := by
    intro α R d a names i hn hk hg
    rw [setting_entry hf.sect hm names hn hk i] at hg
    exact hg
  refine ⟨?_, ?_, ?_, ?_⟩
  · intro hk
    have split : k ∈ [u!"workdir", u!"Workdir"] ∨ k ∈ [u!"logpath", u!"log_path", u!"LogPath"] ∨
        k ∈ [u!"loglevel", u!"log_level", u!"LogLevel"] ∨ k ∈ [u!"include", u!"Include"] := by
      simp only [List.mem_cons, List.not_mem_nil, or_false] at hk ⊢
      grind
    rcases split with hk | hk | hk | hk
    · exact ⟨_, get (R := IsString) (by decide +kernel) hk hf.workdir⟩
    · exact ⟨_, get (R := IsString) (by decide +kernel) hk hf.logpath⟩
    · obtain ⟨a, _, ha⟩ := get (by decide +kernel) hk hf.loglevel
      exact ⟨a, ha⟩
    · exact ⟨_, get (R := IsString) (by decide +kernel) hk hf.incl⟩
  · intro hk
    obtain ⟨ss, rfl, he⟩ := get (by decide +kernel) hk hf.services
    refine ⟨ss, rfl, ?_⟩
    exact Each2_keys he
  · intro hk
    have hh := get (by decide +kernel) hk hf.http
    refine ⟨hh, ?_⟩
    rintro hs rfl k' v' hm'
    have get' : ∀ {α : Type} {R : Toml → α → Prop} {d a : α} {names : List Str} {i : Nat}, names ∈ httpSettings → k' ∈ names →
        Given R d (setting names i (.table hs)) a → R v' a := by
      intro α R d a names i hn hk hg
      rw [setting_entry hh.sect hm' names hn hk i] at hg
      exact hg
    constructor
    · intro hk'
      have split : k' ∈ [u!"max_url_size", u!"MaxUrlSize"] ∨ k' ∈ [u!"max_header_line_size", u!"MaxHeaderLineSize"] ∨
          k' ∈ [u!"max_body_size", u!"MaxBodySize"] ∨ k' ∈ [u!"idle_timeout", u!"IdleTimeout"] := by
        simp only [List.mem_cons, List.not_mem_nil, or_false] at hk' ⊢
        grind
      rcases split with hk | hk | hk | hk
      · obtain ⟨s, hs, _⟩ := get' (by decide +kernel) hk hh.maxUrl; exact ⟨s, hs⟩
      · obtain ⟨s, hs, _⟩ := get' (by decide +kernel) hk hh.maxLine; exact ⟨s, hs⟩
      · obtain ⟨s, hs, _⟩ := get' (by decide +kernel) hk hh.maxBody; exact ⟨s, hs⟩
      · obtain ⟨s, _, hs, _⟩ := get' (by decide +kernel) hk hh.idleTimeout; exact ⟨s, hs⟩
    · intro hk'
      exact ⟨_, get' (by decide +kernel) hk' hh.maxHeaders⟩
  · intro hk
    exact get (by decide +kernel) hk hf.tcp

/-- A file that is accepted, with a size. -/
example : (match ConfigFile.de asciiUnicode .release true (.table [(u!"Http", .table [(u!"MaxBodySize", .str u!"2 mb")])]) with
    | .value c => some c.config.http.maxBody | _ => none) = some 2097152 := by
  decide +kernel

/-- A section by its keys. -/
theorem section_keys {settings : List (List Str)} {es : List (Str × Toml)} (keys : List Str) (hk : es.map (·.1) = keys)
    (h : settings.all (fun n => (keys.filter (fun k => n.contains k)).length ≤ 1) = true) : TomlSection settings (.table es) := by
  intro n hn
  rw [List.all_eq_true] at h
  have := h n hn
  rw [← hk, List.filter_map, List.length_map] at this
  exact of_decide_eq_true this

/-! ## C143: TLS -/

theorem load_services (pathExists : Str → Bool) (config c : Config) (patterns : List (Option (List GlobItem)))
    (order : List (Str × ServiceConfig) → List (Str × ServiceConfig)) (horder : ∀ l, (order l).Perm l)
    (h : Config.load pathExists (some config) true patterns order = .value c) :
    ∃ all, includeAll patterns config.services = .value all ∧ ∃ ss, ss.Perm (if all.length < 1 then [(u!"helloworld", defaultService)] else all) ∧
      Each2 (fun p q => q.1 = p.1 ∧ q.2.service = p.2.service ∧ q.2.tcp.addr = p.2.tcp.addr ∧ q.2.tcp.tls.cert = p.2.tcp.tls.cert ∧
        q.2.tcp.tls.key = p.2.tcp.tls.key) ss c.services := by
  simp only [Config.load, Bool.not_true, Bool.false_eq_true, ↓reduceIte] at h
  cases hi : includeAll patterns config.services with
  | panic => rw [hi] at h; cases h
  | error => rw [hi] at h; cases h
  | value all =>
    rw [hi] at h
    simp only at h
    generalize hss : (if all.length < 1 then [(u!"helloworld", defaultService)] else all) = ss at h
    refine ⟨all, rfl, order ss, by rw [hss]; exact horder ss, ?_⟩
    split at h
    · cases h
    · rename_i c' hc'
      cases h
      have h84 := (C84_nothing_else pathExists _ c hc').2
      simp only at h84
      generalize c.services = cs at h84
      clear hc' hss hi
      generalize order ss = os at h84
      induction h84 with
      | nil => exact .nil
      | cons h1 _ ih => exact .cons ⟨h1.1, h1.2.2.1, h1.2.2.2.1, h1.2.2.2.2.1, h1.2.2.2.2.2.1⟩ ih

/-- A file with one service and a section for TLS, under the given names. -/
def tlsFile (k addr tlsName certName keyName cert key : Str) : Toml :=
  .table [(u!"services", .table [(k, .table [(u!"tcp", .table [(u!"addr", .str addr),
    (tlsName, .table [(certName, .str cert), (keyName, .str key)])])])])]

theorem tlsFile_ignored (U : Unicode) (p : Profile) (addr tlsName certName keyName cert key : Str)
    (h : tlsName ∉ tcpSettings.flatten ∨ (tlsName = u!"tls" ∧ certName ∉ tlsSettings.flatten ∧ keyName ∉ tlsSettings.flatten)) :
    TcpConfig.de U p (.table [(u!"addr", .str addr), (tlsName, .table [(certName, .str cert), (keyName, .str key)])]) =
      .value ⟨addr, ⟨[], [], 0⟩, 0, 0, 0⟩ := by
  rcases h with h | ⟨rfl, h1, h2⟩
  · have := (C142_unknown_violated U p true [(u!"addr", .str addr)] [] tlsName (.table [(certName, .str cert), (keyName, .str key)])).2.2.1 h
    rw [List.cons_append, List.nil_append] at this
    rw [this]
    rfl
  · have e1 := (C142_unknown_violated U p true [] [(keyName, .str key)] certName (.str cert)).2.2.2.1 h1
    have e2 := (C142_unknown_violated U p true [] [] keyName (.str key)).2.2.2.1 h2
    simp only [List.nil_append] at e1 e2
    have e3 : TlsConfig.de U p (.table [(certName, .str cert), (keyName, .str key)]) = .value ⟨[], [], 0⟩ := by
      rw [e1, e2]; rfl
    have e4 : ∀ w, TlsConfig.de U p w = .value ⟨[], [], 0⟩ → TcpConfig.de U p (.table [(u!"addr", .str addr), (u!"tls", w)]) =
        .value ⟨addr, ⟨[], [], 0⟩, 0, 0, 0⟩ := by
      intro w hw
      rw [reads_tcp U p]
      exact ⟨section_keys [u!"addr", u!"tls"] rfl (by decide +kernel), rfl, (reads_tls U p w _).1 hw, rfl, rfl, rfl⟩
    exact e4 _ e3

theorem loadFile_one (U : Unicode) (p : Profile) (strict : Bool) (pathExists chdir : Str → Bool) (glob : Str → Option (List GlobFile))
    (order : List (Str × ServiceConfig) → List (Str × ServiceConfig)) (horder : ∀ l, (order l).Perm l) (k : Str) (hk : trimUnicode k ≠ [])
    (w : Toml) (s : ServiceConfig) (hs : ServiceConfig.de U p strict w = .value s) (hkind : s.service = .helloWorld) :
    ∃ c s1 rtcp rhttp, loadFile U p strict pathExists chdir glob order (some (.table [(u!"services", .table [(k, w)])])) = .value c ∧
      c.services = [(k, s1)] ∧ ServiceConfig.autofix pathExists { s with name := trimUnicode k, idx := 1 } rtcp rhttp = some s1 := by
  have hde : ConfigFile.de U p strict (.table [(u!"services", .table [(k, w)])]) =
      .value ⟨[], ⟨0, none⟩, { Config.empty with services := [(k, s)] }, [], []⟩ := by
    rw [C141_file]
    refine ⟨section_keys [u!"services"] rfl (by decide +kernel), rfl, rfl, rfl, rfl, rfl, rfl, rfl, rfl, rfl, rfl, ?_⟩
    exact ⟨[(k, w)], rfl, .cons ⟨rfl, (C141_service_file U p strict w s).1 hs⟩ .nil⟩
  have h1 : order [(k, s)] = [(k, s)] := List.perm_singleton.mp (horder _)
  have hk' : (trimUnicode k).isEmpty = false := by
    cases h : trimUnicode k with
    | nil => exact absurd h hk
    | cons a l => rfl
  simp only [loadFile, hde, Outcome.bind, List.isEmpty_nil, Bool.not_true, Bool.false_and, Bool.false_eq_true, ↓reduceIte,
    List.nil_append, patternItems, ConfigFile.patterns, Config.load, includeAll, List.length_cons, List.length_nil, Nat.zero_add, Nat.lt_irrefl, h1]
  simp only [Config.autofix, fixServices, hk', Bool.false_eq_true, ↓reduceIte, Config.empty, List.nil_append, List.length_cons,
    List.length_nil, Nat.zero_add]
  cases hf : ServiceConfig.autofix pathExists { s with name := trimUnicode k, idx := 1 }
      (TcpConfig.default.autofix none) (HttpConfig.default.autofix none) with
  | none =>
    exfalso
    simp [ServiceConfig.autofix, hkind, ServiceSetting.autofix] at hf
  | some s1 =>
    exact ⟨_, s1, _, _, rfl, rfl, hf⟩

/-- **C143**, negation for the code as written: a certificate and a key in a section `[..tcp.Tls]`, or under `Cert` and `Key` - spelled
like the other settings can be - are ignored: the service is started and serves everybody unencrypted. -/
theorem C143_misspelled_violated (U : Unicode) (p : Profile) (strict : Bool) (pathExists chdir : Str → Bool)
    (glob : Str → Option (List GlobFile)) (order : List (Str × ServiceConfig) → List (Str × ServiceConfig)) (horder : ∀ l, (order l).Perm l)
    (k addr tlsName certName keyName cert key : Str) (hk : trimUnicode k ≠ [])
    (hn : (tlsName, certName, keyName) = (u!"Tls", u!"cert", u!"key") ∨ (tlsName, certName, keyName) = (u!"Tls", u!"Cert", u!"Key") ∨
      (tlsName, certName, keyName) = (u!"tls", u!"Cert", u!"Key")) :
    ∃ c s, loadFile U p strict pathExists chdir glob order (some (tlsFile k addr tlsName certName keyName cert key)) = .value c ∧
      c.services = [(k, s)] ∧ s.tcp.addr = addr ∧
      ∀ {C K : Type} (x : World C K) (es : List AcceptEvent),
        (s.run x true es).1.map (·.served.id) = (accepted es).map (·.1) ∧ ∀ v ∈ (s.run x true es).1, v.served.encrypted = false := by
  have hn' : tlsName ∉ tcpSettings.flatten ∨ (tlsName = u!"tls" ∧ certName ∉ tlsSettings.flatten ∧ keyName ∉ tlsSettings.flatten) := by
    rcases hn with h | h | h <;> cases h <;> decide +kernel
  have ht := tlsFile_ignored U p addr tlsName certName keyName cert key hn'
  generalize hw : Toml.table [(u!"addr", .str addr), (tlsName, .table [(certName, .str cert), (keyName, .str key)])] = w at ht
  have hs : ServiceConfig.de U p strict (.table [(u!"tcp", w)]) =
      .value ⟨0, [], [], .helloWorld, logAll, ⟨addr, ⟨[], [], 0⟩, 0, 0, 0⟩, ⟨none, 0, 0, 0, 0, 0, none, none⟩⟩ := by
    rw [C141_service_file]
    exact ⟨section_keys [u!"tcp"] rfl (by decide +kernel), rfl, rfl, rfl, rfl, rfl, (reads_tcp U p w _).1 ht, rfl⟩
  obtain ⟨c, s1, rtcp, rhttp, h1, h2, h3⟩ := loadFile_one U p strict pathExists chdir glob order horder k hk _ _ hs rfl
  refine ⟨c, s1, by rw [tlsFile, hw]; exact h1, h2, ?_, ?_⟩
  · simp only [ServiceConfig.autofix, ServiceSetting.autofix, ↓reduceIte, Option.some.injEq] at h3
    rw [← h3]
    rfl
  · intro C K x es
    exact C127_root_tls_violated pathExists _ s1 rtcp rhttp ⟨rfl, rfl⟩ h3 (.inl rfl) x es

/-- A service under `[services.web]` whose certificate is called `Cert`. -/
example : addresses (loadFile asciiUnicode .debug true (fun _ => false) (fun _ => false) (fun _ => none) List.reverse
    (some (tlsFile u!"web" u!"0.0.0.0:443" u!"tls" u!"Cert" u!"Key" u!"c.pem" u!"k.pem"))) = some [(u!"web", u!"0.0.0.0:443")] := by
  decide +kernel

theorem Each2_left {α β : Type} {R : α → β → Prop} {l : List α} {m : List β} (h : Each2 R l m) (a : α) (ha : a ∈ l) : ∃ b ∈ m, R a b := by
  induction h with
  | nil => cases ha
  | cons h1 _ ih =>
    rcases List.mem_cons.1 ha with rfl | ha
    · exact ⟨_, List.mem_cons_self, h1⟩
    · obtain ⟨b, hb, hr⟩ := ih ha
      exact ⟨b, List.mem_cons_of_mem _ hb, hr⟩

theorem Each2_right {α β : Type} {R : α → β → Prop} {l : List α} {m : List β} (h : Each2 R l m) (b : β) (hb : b ∈ m) : ∃ a ∈ l, R a b := by
  induction h with
  | nil => cases hb
  | cons h1 _ ih =>
    rcases List.mem_cons.1 hb with rfl | hb
    · exact ⟨_, List.mem_cons_self, h1⟩
    · obtain ⟨a, ha, hr⟩ := ih hb
      exact ⟨a, List.mem_cons_of_mem _ ha, hr⟩

theorem loadFile_exact (U : Unicode) (p : Profile) (strict : Bool) (pathExists chdir : Str → Bool) (glob : Str → Option (List GlobFile))
    (order : List (Str × ServiceConfig) → List (Str × ServiceConfig)) (v : Toml) (c : Config) :
    loadFile U p strict pathExists chdir glob order (some v) = .value c ↔
    ∃ f, ConfigFile.de U p strict v = .value f ∧ (f.workdir = [] ∨ chdir f.workdir = true) ∧
      (patternItems U p strict glob f.patterns).2 = false ∧
      Config.load pathExists (some f.config) true (patternItems U p strict glob f.patterns).1 order = .value c := by
  simp only [loadFile, Outcome.bind_value]
  refine exists_congr fun f => and_congr_right fun _ => ?_
  have hw : (!f.workdir.isEmpty && !chdir f.workdir) = true ↔ ¬ (f.workdir = [] ∨ chdir f.workdir = true) := by
    cases chdir f.workdir <;> simp
  split
  · rename_i h; simp [hw.1 h]
  · rename_i h
    rw [hw, Classical.not_not] at h
    simp only [h, true_and]
    split
    · rename_i hp
      simp [hp, Outcome.bind_value]
    · rename_i hp
      simp [Bool.eq_false_iff.2 hp]

theorem loadFile_value (U : Unicode) (p : Profile) (strict : Bool) (pathExists chdir : Str → Bool) (glob : Str → Option (List GlobFile))
    (order : List (Str × ServiceConfig) → List (Str × ServiceConfig)) (v : Toml) (c : Config)
    (h : loadFile U p strict pathExists chdir glob order (some v) = .value c) :
    ∃ f patterns, ConfigFile.de U p strict v = .value f ∧ Config.load pathExists (some f.config) true patterns order = .value c := by
  obtain ⟨f, h1, _, _, h2⟩ := (loadFile_exact U p strict pathExists chdir glob order v c).1 h
  exact ⟨f, _, h1, h2⟩

theorem eq_of_key_nodup {α : Type} {l : List (Str × α)} (h : (l.map (·.1)).Nodup) {k : Str} {a b : α} (ha : (k, a) ∈ l) (hb : (k, b) ∈ l) :
    a = b := by
  induction l with
  | nil => cases ha
  | cons x l ih =>
    simp only [List.map_cons, List.nodup_cons, List.mem_map, not_exists, not_and] at h
    rcases List.mem_cons.1 ha with rfl | ha1
    · rcases List.mem_cons.1 hb with h1 | hb1
      · cases h1; rfl
      · exact absurd rfl (h.1 (k, b) hb1)
    · rcases List.mem_cons.1 hb with rfl | hb1
      · exact absurd rfl (h.1 (k, a) ha1)
      · exact ih h.2 ha1 hb1

/-- **C143**, what holds: a certificate or a key under exactly `tls`, `cert` and `key` of a service of the file is used on all its
connections, whatever else is in the file and the included ones, or nobody is served. -/
theorem C143_exact_partial (U : Unicode) (p : Profile) (strict : Bool) (pathExists chdir : Str → Bool)
    (glob : Str → Option (List GlobFile)) (order : List (Str × ServiceConfig) → List (Str × ServiceConfig)) (horder : ∀ l, (order l).Perm l)
    (v : Toml) (c : Config) (h : loadFile U p strict pathExists chdir glob order (some v) = .value c)
    (ss : List (Str × Toml)) (hss : setting [u!"services", u!"Services"] 9 v = some (.table ss)) (hnd : (ss.map (·.1)).Nodup)
    (k : Str) (sv tv lv : Toml) (hk : (k, sv) ∈ ss) (htv : setting [u!"tcp", u!"Tcp"] 4 sv = some tv)
    (hlv : setting [u!"tls"] 1 tv = some lv) (t : Str) (ht : t ≠ [])
    (hck : setting [u!"cert"] 0 lv = some (.str t) ∨ setting [u!"key"] 1 lv = some (.str t)) :
    (∃ s, (k, s) ∈ c.services) ∧
    ∀ s, (k, s) ∈ c.services → ∀ {C K : Type} (x : World C K) (bindOk : Bool) (es : List AcceptEvent),
      ∀ w ∈ (s.run x bindOk es).1, w.served.encrypted = true := by
  obtain ⟨f, pats, hf, hl⟩ := loadFile_value U p strict pathExists chdir glob order v c h
  have hsays := ((C141_file U p strict v f).1 hf).services
  rw [hss] at hsays
  obtain ⟨ss', e, hsvc⟩ := hsays
  cases e
  obtain ⟨all, hall, os, hperm, hfix⟩ := load_services pathExists f.config c pats order horder hl
  obtain ⟨⟨_, added, _, _, hout⟩, hnodup, _⟩ := (C58_include pats f.config.services).2 all hall
  obtain ⟨q, hq, hqk, hqs⟩ := Each2_left hsvc (k, sv) hk
  obtain ⟨k', s0⟩ := q
  simp only at hqk hqs
  subst hqk
  have hmem : (k, s0) ∈ all := by rw [hout]; exact List.mem_append_left _ hq
  have hnd' : (all.map (·.1)).Nodup := hnodup (by rw [← Each2_keys hsvc]; exact hnd)
  have hlen : ¬ all.length < 1 := by
    cases all with
    | nil => cases hmem
    | cons => simp
  rw [if_neg hlen] at hperm
  -- the certificate or the key of the service
  have htls : s0.tcp.tls.cert ≠ [] ∨ s0.tcp.tls.key ≠ [] := by
    have h1 := hqs.tcp
    rw [htv] at h1
    have h2 := TcpSays.tls h1
    rw [hlv] at h2
    rcases hck with hc | hc
    · have h3 := TlsSays.cert h2
      rw [hc] at h3
      cases h3
      exact .inl ht
    · have h3 := TlsSays.key h2
      rw [hc] at h3
      cases h3
      exact .inr ht
  constructor
  · obtain ⟨q, hq2, h1, _⟩ := Each2_left hfix (k, s0) (hperm.mem_iff.2 hmem)
    obtain ⟨k', s1⟩ := q
    simp only at h1
    subst h1
    exact ⟨s1, hq2⟩
  · intro s hs C K x bindOk es w hw
    obtain ⟨q, hq2, h1, _, _, h4, h5⟩ := Each2_right hfix (k, s) hs
    obtain ⟨k', s1⟩ := q
    simp only at h1 h4 h5
    subst h1
    have hsame : s1 = s0 := eq_of_key_nodup hnd' (hperm.mem_iff.1 hq2) hmem
    subst hsame
    obtain ⟨_, hm⟩ := run_mem x bindOk es s w hw
    refine ((C35_tls_never_dropped x.tls s.tcp.tls.cert s.tcp.tls.key s.tcp.tls.timeout s.service.kind bindOk true es).1 ?_).2 _ hm |>.1
    rw [h4, h5]
    exact htls

/-- The same service, correctly spelled. -/
example : (match loadFile asciiUnicode .debug true (fun _ => false) (fun _ => false) (fun _ => none) List.reverse
    (some (tlsFile u!"web" u!"0.0.0.0:443" u!"tls" u!"cert" u!"key" u!"c" u!"k")) with
    | .value c => c.services.map (fun s => (s.2.run sampleWorld true [.conn 7 ⟨some 3, true⟩]).1.map (·.served.encrypted))
    | _ => []) = [[true]] := by
  decide +kernel

/-! ## C144: sections without entries -/

theorem de_empty (U : Unicode) (p : Profile) (strict : Bool) :
    TlsConfig.de U p (.table []) = .value .default ∧ TcpConfig.de U p (.table []) = .value .default ∧
    HttpConfig.de U p (.table []) = .value .default ∧ RuntimeConfig.de (.table []) = .value ⟨0, none⟩ ∧
    ConfigFile.de U p strict (.table []) = .value ⟨[], ⟨0, none⟩, .empty, [], []⟩ := ⟨rfl, rfl, rfl, rfl, rfl⟩

theorem setting_cons_other (names : List Str) (i : Nat) (k : Str) (w : Toml) (es : List (Str × Toml)) (h : k ∉ names) :
    setting names i (.table ((k, w) :: es)) = setting names i (.table es) := by
  simp [setting, h]

theorem setting_cons_own (names : List Str) (i : Nat) (k : Str) (w : Toml) (es : List (Str × Toml)) (h : k ∈ names) :
    setting names i (.table ((k, w) :: es)) = some w := by
  simp [setting, h]

theorem setting_absent (names : List Str) (i : Nat) (es : List (Str × Toml)) (h : ∀ e ∈ es, e.1 ∉ names) :
    setting names i (.table es) = none := by
  simp only [setting, Option.map_eq_none_iff, List.find?_eq_none, List.contains_eq_mem, decide_eq_true_eq]
  exact h

theorem section_cons (settings : List (List Str)) (own : List Str) (k : Str) (w : Toml) (es : List (Str × Toml))
    (hk : (settings.all (fun n => !n.contains k || n.isPerm own)) = true) (h : ∀ e ∈ es, e.1 ∉ own) :
    TomlSection settings (.table ((k, w) :: es)) ↔ TomlSection settings (.table es) := by
  rw [List.all_eq_true] at hk
  simp only [TomlSection]
  constructor
  · intro hs n hn
    have h1 := hs n hn
    rw [List.filter_cons] at h1
    split at h1
    · simp only [List.length_cons] at h1; omega
    · exact h1
  · intro hs n hn
    rw [List.filter_cons]
    split
    · rename_i hc
      have h2 := hk n hn
      rw [hc, Bool.not_true, Bool.false_or, List.isPerm_iff] at h2
      have h3 : es.filter (fun e => n.contains e.1) = [] := by
        rw [List.filter_eq_nil_iff]
        intro e he hne
        exact h e he (h2.mem_iff.1 (by simpa using hne))
      rw [h3]; exact Nat.le_refl 1
    · exact hs n hn

theorem FileSays_iff (U : Unicode) (p : Profile) (strict : Bool) (v : Toml) (c : ConfigFile) : FileSays U p strict v c ↔
    TomlSection fileSettings v ∧ c.config.slab = [] ∧
    Given IsString [] (setting [u!"workdir", u!"Workdir"] 0 v) c.workdir ∧
    Given RuntimeSays ⟨0, none⟩ (setting [u!"runtime", u!"Runtime"] 1 v) c.runtime ∧
    Given (LoggingSays U p strict) logAll (setting [u!"log", u!"Log", u!"logging", u!"Logging"] 2 v) c.config.logging ∧
    Given IsString [] (setting [u!"logpath", u!"log_path", u!"LogPath"] 3 v) c.config.logpath ∧
    Given (IsSome IsString) none (setting [u!"loglevel", u!"log_level", u!"LogLevel"] 4 v) c.config.loglevel ∧
    Given (TcpSays U p) ⟨[], ⟨[], [], 0⟩, 0, 0, 0⟩ (setting [u!"tcp", u!"Tcp"] 5 v) c.config.tcp ∧
    Given (HttpSays U p) ⟨none, 0, 0, 0, 0, 0, none, none⟩ (setting [u!"http", u!"Http"] 6 v) c.config.http ∧
    Given IsString [] (setting [u!"include", u!"Include"] 7 v) c.include ∧
    Given (IsList IsString) [] (setting [u!"includes", u!"Includes"] 8 v) c.includes ∧
    Given (IsMap (ServiceSays U p strict)) [] (setting [u!"services", u!"Services"] 9 v) c.config.services := by
  constructor
  · rintro ⟨h1, h2, h3, h4, h5, h6, h7, h8, h9, h10, h11, h12⟩
    exact ⟨h1, h2, h3, h4, h5, h6, h7, h8, h9, h10, h11, h12⟩
  · rintro ⟨h1, h2, h3, h4, h5, h6, h7, h8, h9, h10, h11, h12⟩
    exact ⟨h1, h2, h3, h4, h5, h6, h7, h8, h9, h10, h11, h12⟩

/-- **C144**, what holds: an empty section `[runtime]`, `[tcp]`, `[http]` or `[services]` is the same as none. -/
theorem C144_empty_partial (U : Unicode) (p : Profile) (strict : Bool) (es : List (Str × Toml)) (own : List Str)
    (hown : own ∈ [[u!"runtime", u!"Runtime"], [u!"tcp", u!"Tcp"], [u!"http", u!"Http"], [u!"services", u!"Services"]])
    (k : Str) (hk : k ∈ own) (hes : ∀ e ∈ es, e.1 ∉ own) (c : ConfigFile) :
    ConfigFile.de U p strict (.table ((k, .table []) :: es)) = .value c ↔ ConfigFile.de U p strict (.table es) = .value c := by
  have tcp : ∀ a : TcpConfig, TcpSays U p (.table []) a ↔ a = ⟨[], ⟨[], [], 0⟩, 0, 0, 0⟩ := by
    intro a; rw [← reads_tcp U p, (de_empty U p strict).2.1]; simp [eq_comm, TcpConfig.default, TlsConfig.default]
  have http : ∀ a : HttpConfig, HttpSays U p (.table []) a ↔ a = ⟨none, 0, 0, 0, 0, 0, none, none⟩ := by
    intro a; rw [← reads_http U p, (de_empty U p strict).2.2.1]; simp [eq_comm, HttpConfig.default]
  have runtime : ∀ a : RuntimeConfig, RuntimeSays (.table []) a ↔ a = ⟨0, none⟩ := by
    intro a; rw [← reads_runtime, (de_empty U p strict).2.2.2.1]; simp [eq_comm]
  have services : ∀ a : List (Str × ServiceConfig), IsMap (ServiceSays U p strict) (.table []) a ↔ a = [] := by
    intro a
    constructor
    · rintro ⟨_, h, h2⟩; cases h; cases h2; rfl
    · rintro rfl; exact ⟨[], rfl, .nil⟩
  have hall : ∀ own ∈ [[u!"runtime", u!"Runtime"], [u!"tcp", u!"Tcp"], [u!"http", u!"Http"], [u!"services", u!"Services"]], ∀ k ∈ own,
      ∀ n ∈ fileSettings, k ∈ n → n = own := by decide +kernel
  have ho : ∀ n i, n ∈ fileSettings →
      setting n i (.table ((k, .table []) :: es)) = if n = own then some (.table []) else setting n i (.table es) := by
    intro n i hn
    split
    · rename_i e; subst e; exact setting_cons_own n i k _ es hk
    · rename_i e; exact setting_cons_other n i k _ es (fun hkn => e (hall own hown k hk n hn hkn))
  have hsec : fileSettings.all (fun n => !n.contains k || n.isPerm own) = true := by
    rw [List.all_eq_true]
    intro n hn
    cases hc : n.contains k with
    | false => rfl
    | true =>
      rw [hall own hown k hk n hn (by simpa using hc)]
      simp [List.isPerm_iff]
  have hown' := fun i => setting_absent own i es hes
  rw [C141_file, C141_file, FileSays_iff, FileSays_iff, section_cons fileSettings own k _ es hsec hes,
    ho [u!"workdir", u!"Workdir"] 0 (by decide +kernel),
    ho [u!"runtime", u!"Runtime"] 1 (by decide +kernel),
    ho [u!"log", u!"Log", u!"logging", u!"Logging"] 2 (by decide +kernel),
    ho [u!"logpath", u!"log_path", u!"LogPath"] 3 (by decide +kernel),
    ho [u!"loglevel", u!"log_level", u!"LogLevel"] 4 (by decide +kernel),
    ho [u!"tcp", u!"Tcp"] 5 (by decide +kernel),
    ho [u!"http", u!"Http"] 6 (by decide +kernel),
    ho [u!"include", u!"Include"] 7 (by decide +kernel),
    ho [u!"includes", u!"Includes"] 8 (by decide +kernel),
    ho [u!"services", u!"Services"] 9 (by decide +kernel)]
  clear ho hsec hall hes
  simp only [List.mem_cons, List.not_mem_nil, or_false] at hown
  rcases hown with rfl | rfl | rfl | rfl <;>
    simp +decide only [↓reduceIte, hown', Given, tcp, http, runtime, services]

/-- A file in which the sections are there but empty. -/
example : (match ConfigFile.de asciiUnicode .release true
      (.table [(u!"Tcp", .table []), (u!"http", .table []), (u!"runtime", .arr []), (u!"services", .table [])]) with
    | .value c => some c | _ => none) = some ⟨[], ⟨0, none⟩, .empty, [], []⟩ := by
  decide +kernel

/-- **C144**, negation for the code as written: a section `[logging]` without `appenders` - one that only gives a `timelayout`, say, or
one with the misspelled `Appenders` - turns the log of the server off: it has no appender, whereas without the section it has the
console. -/
theorem C144_logging_violated (U : Unicode) (p : Profile) (strict : Bool) (pathExists chdir openOk : Str → Bool)
    (glob : Str → Option (List GlobFile)) (order : List (Str × ServiceConfig) → List (Str × ServiceConfig)) (v : Toml)
    (c : Config) (h : loadFile U p strict pathExists chdir glob order (some v) = .value c) :
    (∀ ls, setting [u!"log", u!"Log", u!"logging", u!"Logging"] 2 v = some (.table ls) → (∀ e ∈ ls, e.1 ∉ [u!"appenders", u!"Appender"]) →
      ∀ as, c.logging.init openOk c.logpath = some as → as.getD [] = []) ∧
    (setting [u!"log", u!"Log", u!"logging", u!"Logging"] 2 v = none →
      c.logging.init openOk c.logpath = some (some [⟨0, u!"colored", ⟨.trace, false⟩, none, false, 0⟩])) := by
  obtain ⟨f, pats, hf, hl⟩ := loadFile_value U p strict pathExists chdir glob order v c h
  have hsays := ((C141_file U p strict v f).1 hf).logging
  have hc : c.logging = { f.config.logging with serviceName := [], serviceIdx := 0 } := by
    simp only [Config.load, Bool.not_true, Bool.false_eq_true, ↓reduceIte] at hl
    split at hl
    · cases hl
    · cases hl
    · split at hl
      · cases hl
      · rename_i c' hc'
        cases hl
        obtain ⟨h1, _⟩ := Config.autofix_spec pathExists _ _ hc'
        rw [h1]
  constructor
  · intro ls hls hno as has
    rw [hls] at hsays
    have h1 := LoggingSays.appenders hsays
    rw [setting_absent _ _ ls hno] at h1
    have h1 : f.config.logging.appenders = [] := h1
    simp only [LoggingConfig.init, hc, h1, initLoop] at has
    split at has
    · cases has; rfl
    · cases has; rfl
  · intro hnone
    rw [hnone] at hsays
    have h1 : f.config.logging = logAll := hsays
    simp only [LoggingConfig.init, hc, h1, logAll, initLoop, appenderLevel]
    simp
    decide +kernel

/-- A file that only sets the layout of the time. -/
def layoutFile : Toml := .table [(u!"logging", .table [(u!"timelayout", .str u!"%H")])]

example : (match loadFile asciiUnicode .release true (fun _ => true) (fun _ => true) (fun _ => none) id (some layoutFile) with
    | .value c => c.logging.init (fun _ => true) c.logpath | _ => none) = some (some []) := by
  decide +kernel

/-! ## C145: early answers -/

/-- The names of the services, and the settings of each. -/
def kindTable : List (List Str × List (List Str)) :=
  [([u!"HelloWorld", u!"helloworld"], [earlySetting]),
   ([u!"FileSystem", u!"fs"], [earlySetting, [u!"root", u!"Root"], [u!"rewrites", u!"Rewrites"]]),
   ([u!"Forward", u!"forward"], [earlySetting, [u!"target", u!"Target", u!"target_addr", u!"TargetAddress"], [u!"rules", u!"Rules"]]),
   ([u!"Upstream", u!"upstream"], [earlySetting, [u!"targets", u!"Targets", u!"target_addrs", u!"TargetAddrs", u!"target_addresses",
     u!"TargetAddresses"], [u!"rules", u!"Rules"]])]

theorem kind_early (strict : Bool) (key ek : Str) (e : Toml) (rest : List (Str × Toml)) (hek : ek ∈ earlySetting)
    (hrest : ∀ x ∈ rest, x.1 ∉ earlySetting) (k : ServiceSetting) :
    KindSays strict (.table [(key, .table ((ek, e) :: rest))]) k ↔ EarlyReads e ∧ KindSays strict (.table [(key, .table rest)]) k := by
  have only : ∀ (names : List Str) (x w : Toml), Only names (.table [(key, x)]) w ↔ key ∈ names ∧ w = x := by
    intro names x w
    constructor
    · rintro ⟨k', h1, h2⟩; cases h2; exact ⟨h1, rfl⟩
    · rintro ⟨h1, rfl⟩; exact ⟨key, h1, rfl⟩
  have early : EarlyOk (.table ((ek, e) :: rest)) ↔ EarlyReads e := by
    simp only [EarlyOk, setting_cons_own _ _ ek e rest hek, Given, IsSome]
    constructor
    · rintro ⟨_, _, _, h⟩; exact h
    · intro h; exact ⟨some (), (), rfl, h⟩
  have early0 : EarlyOk (.table rest) := ⟨none, by simp only [setting_absent _ _ rest hrest, Given]⟩
  have hpp : ∀ ek ∈ earlySetting, ∀ t ∈ kindTable, ∀ n ∈ t.2, ek ∈ n → n = earlySetting := by decide +kernel
  have tab : ∀ t ∈ kindTable, (VariantTable strict t.2 (.table ((ek, e) :: rest)) ↔ VariantTable strict t.2 (.table rest)) := by
    intro t ht
    have hsec : t.2.all (fun n => !n.contains ek || n.isPerm earlySetting) = true := by
      rw [List.all_eq_true]
      intro n hn
      cases hc : n.contains ek with
      | false => rfl
      | true =>
        rw [hpp ek hek t ht n hn (by simpa using hc)]
        simp [List.isPerm_iff]
    have hfl : ek ∈ t.2.flatten := by
      have : ∀ t ∈ kindTable, earlySetting ∈ t.2 := by decide +kernel
      exact List.mem_flatten.2 ⟨_, this t ht, hek⟩
    simp only [VariantTable, section_cons t.2 earlySetting ek e rest hsec hrest, NoOther, List.mem_cons, forall_eq_or_imp, hfl, true_and]
  have other : ∀ t ∈ kindTable, ∀ n ∈ t.2, n ≠ earlySetting → ∀ i, setting n i (.table ((ek, e) :: rest)) = setting n i (.table rest) := by
    intro t ht n hn hne i
    exact setting_cons_other n i ek e rest (fun h => hne (hpp ek hek t ht n hn h))
  constructor
  · intro h
    cases h with
    | hello w h1 h2 h3 =>
      obtain ⟨hkey, rfl⟩ := (only _ _ _).1 h1
      exact ⟨early.1 h3, .hello _ ((only _ _ _).2 ⟨hkey, rfl⟩) ((tab kindTable[0] (by simp [kindTable])).1 h2) early0⟩
    | fs w root h1 h2 h3 h4 h5 =>
      obtain ⟨hkey, rfl⟩ := (only _ _ _).1 h1
      rw [other kindTable[1] (by simp [kindTable]) _ (by decide +kernel) (by decide +kernel)] at h4 h5
      exact ⟨early.1 h3, .fs _ root ((only _ _ _).2 ⟨hkey, rfl⟩) ((tab kindTable[1] (by simp [kindTable])).1 h2) early0 h4 h5⟩
    | forward w h1 h2 h3 h4 h5 =>
      obtain ⟨hkey, rfl⟩ := (only _ _ _).1 h1
      rw [other kindTable[2] (by simp [kindTable]) _ (by decide +kernel) (by decide +kernel)] at h4 h5
      exact ⟨early.1 h3, .forward _ ((only _ _ _).2 ⟨hkey, rfl⟩) ((tab kindTable[2] (by simp [kindTable])).1 h2) early0 h4 h5⟩
    | upstream w h1 h2 h3 h4 h5 =>
      obtain ⟨hkey, rfl⟩ := (only _ _ _).1 h1
      rw [other kindTable[3] (by simp [kindTable]) _ (by decide +kernel) (by decide +kernel)] at h4 h5
      exact ⟨early.1 h3, .upstream _ ((only _ _ _).2 ⟨hkey, rfl⟩) ((tab kindTable[3] (by simp [kindTable])).1 h2) early0 h4 h5⟩
  · rintro ⟨he, h⟩
    cases h with
    | hello w h1 h2 h3 =>
      obtain ⟨hkey, rfl⟩ := (only _ _ _).1 h1
      exact .hello _ ((only _ _ _).2 ⟨hkey, rfl⟩) ((tab kindTable[0] (by simp [kindTable])).2 h2) (early.2 he)
    | fs w root h1 h2 h3 h4 h5 =>
      obtain ⟨hkey, rfl⟩ := (only _ _ _).1 h1
      rw [← other kindTable[1] (by simp [kindTable]) _ (by decide +kernel) (by decide +kernel)] at h4 h5
      exact .fs _ root ((only _ _ _).2 ⟨hkey, rfl⟩) ((tab kindTable[1] (by simp [kindTable])).2 h2) (early.2 he) h4 h5
    | forward w h1 h2 h3 h4 h5 =>
      obtain ⟨hkey, rfl⟩ := (only _ _ _).1 h1
      rw [← other kindTable[2] (by simp [kindTable]) _ (by decide +kernel) (by decide +kernel)] at h4 h5
      exact .forward _ ((only _ _ _).2 ⟨hkey, rfl⟩) ((tab kindTable[2] (by simp [kindTable])).2 h2) (early.2 he) h4 h5
    | upstream w h1 h2 h3 h4 h5 =>
      obtain ⟨hkey, rfl⟩ := (only _ _ _).1 h1
      rw [← other kindTable[3] (by simp [kindTable]) _ (by decide +kernel) (by decide +kernel)] at h4 h5
      exact .upstream _ ((only _ _ _).2 ⟨hkey, rfl⟩) ((tab kindTable[3] (by simp [kindTable])).2 h2) (early.2 he) h4 h5

/-- **C145**, negation for the code as written: an early answer that can be read changes nothing: the service is the one without it,
so that every client gets what it would get without it. -/
theorem C145_early_violated (U : Unicode) (p : Profile) (strict : Bool) (key ek sk : Str) (e : Toml) (rest srest : List (Str × Toml))
    (hek : ek ∈ earlySetting) (hrest : ∀ x ∈ rest, x.1 ∉ earlySetting) (hsk : sk ∈ [u!"service", u!"Service"])
    (hsrest : ∀ x ∈ srest, x.1 ∉ [u!"service", u!"Service"]) (he : EarlyReads e) (s : ServiceConfig) :
    ServiceConfig.de U p strict (.table ((sk, .table [(key, .table ((ek, e) :: rest))]) :: srest)) = .value s ↔
      ServiceConfig.de U p strict (.table ((sk, .table [(key, .table rest)]) :: srest)) = .value s := by
  have hall : ∀ sk ∈ [u!"service", u!"Service"], ∀ n ∈ serviceSettings, sk ∈ n → n = [u!"service", u!"Service"] := by decide +kernel
  have hsec : serviceSettings.all (fun n => !n.contains sk || n.isPerm [u!"service", u!"Service"]) = true := by
    rw [List.all_eq_true]
    intro n hn
    cases hc : n.contains sk with
    | false => rfl
    | true =>
      rw [hall sk hsk n hn (by simpa using hc)]
      simp [List.isPerm_iff]
  have hset : ∀ w n i, n ∈ serviceSettings → n ≠ [u!"service", u!"Service"] →
      setting n i (.table ((sk, w) :: srest)) = setting n i (.table srest) :=
    fun w n i hn hne => setting_cons_other n i sk w srest (fun h => hne (hall sk hsk n hn h))
  have key : ∀ w w', (∀ k, KindSays strict w k → KindSays strict w' k) →
      ServiceConfig.de U p strict (.table ((sk, w) :: srest)) = .value s →
      ServiceConfig.de U p strict (.table ((sk, w') :: srest)) = .value s := by
    intro w w' hww h
    rw [C141_service_file] at h ⊢
    obtain ⟨h1, h2, h3, h4, h5, h6, h7, h8⟩ := h
    rw [setting_cons_own _ _ sk w srest hsk] at h5
    rw [hset _ _ _ (by decide +kernel) (by decide +kernel)] at h3 h4 h6 h7 h8
    refine ⟨(section_cons _ _ _ _ _ hsec hsrest).2 ((section_cons _ _ _ _ _ hsec hsrest).1 h1), h2, ?_, ?_, ?_, ?_, ?_, ?_⟩
    · rw [hset _ _ _ (by decide +kernel) (by decide +kernel)]; exact h3
    · rw [hset _ _ _ (by decide +kernel) (by decide +kernel)]; exact h4
    · rw [setting_cons_own _ _ sk w' srest hsk]; exact hww _ h5
    · rw [hset _ _ _ (by decide +kernel) (by decide +kernel)]; exact h6
    · rw [hset _ _ _ (by decide +kernel) (by decide +kernel)]; exact h7
    · rw [hset _ _ _ (by decide +kernel) (by decide +kernel)]; exact h8
  exact ⟨key _ _ (fun k hk => ((kind_early strict _ ek e rest hek hrest k).1 hk).2),
    key _ _ (fun k hk => (kind_early strict _ ek e rest hek hrest k).2 ⟨he, hk⟩)⟩

/-- **C145**, what holds: an early answer that cannot be read is refused, for every kind of service. -/
theorem C145_unreadable_partial (U : Unicode) (p : Profile) (strict : Bool) (key ek sk : Str) (e : Toml) (rest srest : List (Str × Toml))
    (hek : ek ∈ earlySetting) (hrest : ∀ x ∈ rest, x.1 ∉ earlySetting) (hsk : sk ∈ [u!"service", u!"Service"]) (he : ¬ EarlyReads e)
    (s : ServiceConfig) : ServiceConfig.de U p strict (.table ((sk, .table [(key, .table ((ek, e) :: rest))]) :: srest)) ≠ .value s := by
  intro h
  rw [C141_service_file] at h
  have h5 := h.service
  rw [setting_cons_own _ _ sk _ srest hsk] at h5
  exact he ((kind_early strict key ek e rest hek hrest _).1 h5).1

/-- "503 for `/old`", which nobody ever gets; its condition is not even looked at. -/
def earlySample : Toml := .table [(u!"matchs", .arr [.str u!"((("]), (u!"resp", .table [(u!"code", .int 503)])]

example : EarlyReads earlySample ∧
    (match ServiceConfig.de asciiUnicode .release true
      (.table [(u!"service", .table [(u!"helloworld", .table [(u!"filter", earlySample)])])]) with
    | .value s => some s.service | _ => none) = some .helloWorld ∧ ¬ EarlyReads (.str u!"503") := by
  refine ⟨(reads_early earlySample ()).1 (by decide +kernel), by decide +kernel, fun h => h.sect⟩

/-! ## C147: panics -/

theorem bind_np {α β : Type} {x : Outcome α} {f : α → Outcome β} (h1 : x ≠ .panic) (h2 : ∀ a, f a ≠ .panic) : x.bind f ≠ .panic := by
  cases x with
  | value a => exact h2 a
  | error => simp [Outcome.bind]
  | panic => exact absurd rfl h1

/-- The strings of a value are all of a kind. -/
def CalmFor (Q : Str → Prop) (v : Toml) : Prop := ∀ s, HasString v s → Q s

/-- `de` panics only because of a string. -/
def SafeFor {α : Type} (Q : Str → Prop) (de : Toml → Outcome α) : Prop := ∀ v, CalmFor Q v → de v ≠ .panic

/-- No string of a value makes the reading of a size or duration panic. -/
abbrev Calm (U : Unicode) (p : Profile) (v : Toml) : Prop := CalmFor (fun s => parseSize U p s ≠ .panic ∧ parseDuration U p s ≠ .panic) v

abbrev Safe {α : Type} (U : Unicode) (p : Profile) (de : Toml → Outcome α) : Prop :=
  SafeFor (fun s => parseSize U p s ≠ .panic ∧ parseDuration U p s ≠ .panic) de

section
variable {U : Unicode} {p : Profile} {Q : Str → Prop}

theorem safe_str : SafeFor Q deStr := by intro v _; cases v <;> simp [deStr]
theorem safe_bool : SafeFor Q deBool := by intro v _; cases v <;> simp [deBool]
theorem safe_int (lo hi : Int) : SafeFor Q (deInt lo hi) := by
  intro v _
  cases v with
  | int i => simp only [deInt]; split <;> simp
  | _ => simp [deInt]
theorem safe_u32 : SafeFor Q deU32 := fun v hv => bind_np (safe_int _ _ v hv) (fun a => by simp)
theorem safe_i32 : SafeFor Q deI32 := safe_int _ _
theorem safe_size : Safe U p (deSize U p) := by
  intro v hv
  cases v with
  | str s => exact (hv s (.here s)).1
  | _ => simp [deSize]
theorem safe_duration : Safe U p (deDuration U p) := by
  intro v hv
  cases v with
  | str s => exact bind_np (hv s (.here s)).2 (fun a => by simp)
  | _ => simp [deDuration]
theorem safe_opt {α : Type} {de : Toml → Outcome α} (h : SafeFor Q de) : SafeFor Q (deOpt de) :=
  fun v hv => bind_np (h v hv) (fun a => by simp)
theorem safe_vec {α : Type} {de : Toml → Outcome α} (h : SafeFor Q de) : SafeFor Q (deVec de) := by
  intro v hv
  cases v with
  | arr vs =>
    have : ∀ l, (∀ x ∈ l, CalmFor Q x) → deAll de l ≠ .panic := by
      intro l
      induction l with
      | nil => intro _; simp [deAll]
      | cons x l ih =>
        intro hl
        exact bind_np (h x (hl x List.mem_cons_self)) (fun a => bind_np (ih (fun y hy => hl y (List.mem_cons_of_mem _ hy))) (fun b => by simp))
    exact this vs (fun x hx s hs => hv s (.inArr vs x s hx hs))
  | _ => simp [deVec]
theorem safe_map {α : Type} {de : Toml → Outcome α} (h : SafeFor Q de) : SafeFor Q (deMap de) := by
  intro v hv
  cases v with
  | table es =>
    have : ∀ l : List (Str × Toml), (∀ x ∈ l, CalmFor Q x.2) → deEntries de l ≠ .panic := by
      intro l
      induction l with
      | nil => intro _; simp [deEntries]
      | cons x l ih =>
        intro hl
        exact bind_np (h x.2 (hl x List.mem_cons_self)) (fun a => bind_np (ih (fun y hy => hl y (List.mem_cons_of_mem _ hy))) (fun b => by simp))
    exact this es (fun x hx s hs => hv s (.inTable es x.1 x.2 s hx hs))
  | _ => simp [deMap]

theorem pick_np (n : List Str) (es : List (Str × Toml)) : pick n es ≠ .panic := by
  unfold pick; split <;> simp

/-- The values of the fields are parts of the value. -/
theorem fieldsFrom_calm (v : Toml) (hv : CalmFor Q v) (fs : List (List Str)) (i : Nat) :
    fieldsFrom v fs i ≠ .panic ∧ ∀ xs, fieldsFrom v fs i = .value xs → ∀ x, some x ∈ xs → CalmFor Q x := by
  induction fs generalizing i with
  | nil => exact ⟨by simp [fieldsFrom], by intro xs h; simp [fieldsFrom] at h; subst h; simp⟩
  | cons f fs ih =>
    cases v with
    | table es =>
      refine ⟨bind_np (pick_np f es) (fun a => bind_np (ih _).1 (fun b => by simp)), ?_⟩
      intro xs h x hx
      simp only [fieldsFrom, Outcome.bind_value, Outcome.value.injEq, pick_value] at h
      obtain ⟨a, ⟨_, rfl⟩, ys, hys, rfl⟩ := h
      rcases List.mem_cons.1 hx with hx | hx
      · intro s hs
        simp only [setting] at hx
        obtain ⟨e, he, rfl⟩ := Option.map_eq_some_iff.1 hx.symm
        exact hv s (.inTable es e.1 e.2 s (List.mem_of_find?_eq_some he) hs)
      · exact (ih _).2 ys hys x hx
    | arr vs =>
      refine ⟨bind_np (ih _).1 (fun b => by simp), ?_⟩
      intro xs h x hx
      simp only [fieldsFrom, Outcome.bind_value, Outcome.value.injEq] at h
      obtain ⟨ys, hys, rfl⟩ := h
      rcases List.mem_cons.1 hx with hx | hx
      · intro s hs
        exact hv s (.inArr vs x s (List.mem_of_getElem? hx.symm) hs)
      · exact (ih _).2 ys hys x hx
    | _ => exact ⟨by simp [fieldsFrom], by intro xs h; simp [fieldsFrom] at h⟩

theorem firstMistake_np {α : Type} {fs : List (List Str)} {make : List (Option Toml) → Outcome α}
    (h : ∀ xs, (∀ x, some x ∈ xs → CalmFor Q x) → make xs ≠ .panic) (es : List (Str × Toml)) (seen : List Nat) (hes : ∀ e ∈ es, CalmFor Q e.2) :
    firstMistake fs make es seen ≠ .panic := by
  induction es generalizing seen with
  | nil => simp [firstMistake]
  | cons e es ih =>
    obtain ⟨k, x⟩ := e
    have hrest : ∀ e ∈ es, CalmFor Q e.2 := fun e he => hes e (List.mem_cons_of_mem _ he)
    simp only [firstMistake]
    split
    · exact ih _ hrest
    · rename_i i _
      split
      · simp
      · split
        · exact ih _ hrest
        · simp
        · rename_i hp
          refine absurd hp (h _ fun y hy => ?_)
          simp only [onlyField, List.mem_map, List.mem_range] at hy
          obtain ⟨j, _, hj⟩ := hy
          split at hj
          · cases hj; exact hes (k, x) List.mem_cons_self
          · cases hj

theorem safe_struct {α : Type} {fs : List (List Str)} {make : List (Option Toml) → Outcome α}
    (h : ∀ xs, (∀ x, some x ∈ xs → CalmFor Q x) → make xs ≠ .panic) : SafeFor Q (deStruct fs make) := by
  intro v hv
  have key : (fieldsFrom v fs 0).bind make ≠ .panic := by
    have := fieldsFrom_calm v hv fs 0
    cases hx : fieldsFrom v fs 0 with
    | value xs => exact h xs (this.2 xs hx)
    | error => simp [Outcome.bind]
    | panic => exact absurd hx this.1
  cases v with
  | table es =>
    simp only [deStruct]
    split
    · simp
    · exact firstMistake_np h es [] (fun e he => fun s hs => hv s (.inTable es e.1 e.2 s he hs))
  | arr vs => exact key
  | _ => simp [deStruct]

theorem safe_variantStruct {α : Type} {strict : Bool} {fs : List (List Str)} {make : List (Option Toml) → Outcome α}
    (h : ∀ xs, (∀ x, some x ∈ xs → CalmFor Q x) → make xs ≠ .panic) : SafeFor Q (deVariantStruct strict fs make) := by
  intro v hv
  cases v with
  | table es =>
    simp only [deVariantStruct]
    split
    · simp
    · exact safe_struct h _ hv
  | _ => exact safe_struct (fs := fs) h _ hv

theorem safe_field {α : Type} {de : Toml → Outcome α} (h : SafeFor Q de) {xs : List (Option Toml)} (hx : ∀ x, some x ∈ xs → CalmFor Q x)
    (i : Nat) (d : α) : field xs i d de ≠ .panic := by
  unfold field
  split
  · rename_i v hv
    exact h v (hx v (List.mem_of_getElem? hv))
  · simp

theorem safe_tls : Safe U p (TlsConfig.de U p) :=
  safe_struct fun _ hx => bind_np (safe_field safe_str hx _ _) fun _ => bind_np (safe_field safe_str hx _ _) fun _ =>
    bind_np (safe_field safe_duration hx _ _) fun _ => by simp

theorem safe_tcp : Safe U p (TcpConfig.de U p) :=
  safe_struct fun _ hx => bind_np (safe_field safe_str hx _ _) fun _ => bind_np (safe_field safe_tls hx _ _) fun _ =>
    bind_np (safe_field safe_size hx _ _) fun _ => bind_np (safe_field safe_size hx _ _) fun _ =>
    bind_np (safe_field safe_size hx _ _) fun _ => by simp

theorem safe_websocket : Safe U p (websocketDe U p) :=
  safe_struct fun _ hx => bind_np (safe_field safe_size hx _ _) fun _ => bind_np (safe_field safe_size hx _ _) fun _ =>
    bind_np (safe_field safe_duration hx _ _) fun _ => bind_np (safe_field (safe_opt safe_i32) hx _ _) fun _ => by simp

theorem safe_http : Safe U p (HttpConfig.de U p) :=
  safe_struct fun _ hx => bind_np (safe_field (safe_opt safe_bool) hx _ _) fun _ => bind_np (safe_field safe_duration hx _ _) fun _ =>
    bind_np (safe_field safe_size hx _ _) fun _ => bind_np (safe_field safe_size hx _ _) fun _ =>
    bind_np (safe_field safe_u32 hx _ _) fun _ => bind_np (safe_field safe_size hx _ _) fun _ =>
    bind_np (safe_field (safe_opt safe_i32) hx _ _) fun _ => bind_np (safe_field (safe_opt safe_websocket) hx _ _) fun _ => by simp

theorem deVariant_calm (vs : List (List Str)) (v : Toml) (hv : CalmFor Q v) :
    deVariant vs v ≠ .panic ∧ ∀ i w, deVariant vs v = .value (i, some w) → CalmFor Q w := by
  constructor
  · unfold deVariant
    split <;> try split
    all_goals simp
  · intro i w h
    obtain ⟨k, rfl, _⟩ := (deVariant_table vs v i w).1 h
    exact fun s hs => hv s (.inTable _ k w s List.mem_cons_self hs)

theorem safe_variant {α : Type} (vs : List (List Str)) (f : Nat × Option Toml → Outcome α) (h0 : ∀ i, f (i, none) ≠ .panic)
    (h1 : ∀ i w, CalmFor Q w → f (i, some w) ≠ .panic) : SafeFor Q (fun v => (deVariant vs v).bind f) := by
  intro v hv
  obtain ⟨k1, k2⟩ := deVariant_calm vs v hv
  simp only
  cases h : deVariant vs v with
  | panic => exact absurd h k1
  | error => simp [Outcome.bind]
  | value x =>
    obtain ⟨i, o⟩ := x
    cases o with
    | none => exact h0 i
    | some w => exact h1 i w (k2 i w h)

theorem safe_appender (strict : Bool) : Safe U p (AppenderConfig.de U p strict) := by
  refine safe_variant _ _ (fun i => ?_) (fun i w hw => ?_)
  · split <;> simp_all
  · split
    · rename_i v' he
      cases he
      exact safe_variantStruct (fun _ hx => bind_np (safe_field (safe_opt safe_str) hx _ _) fun _ => by simp) _ hw
    · rename_i v' he
      cases he
      exact safe_variantStruct (fun _ hx => bind_np (safe_field (safe_opt safe_str) hx _ _) fun _ =>
        bind_np (safe_field (safe_opt safe_bool) hx _ _) fun _ => bind_np (safe_field safe_bool hx _ _) fun _ =>
        bind_np (safe_field safe_size hx _ _) fun _ => by simp) _ hw
    · simp

theorem safe_logging (strict : Bool) : Safe U p (LoggingConfig.de U p strict) :=
  safe_struct fun _ hx => bind_np (safe_field (safe_opt safe_bool) hx _ _) fun _ => bind_np (safe_field safe_str hx _ _) fun _ =>
    bind_np (safe_field (safe_vec (safe_appender strict)) hx _ _) fun _ => by simp

theorem safe_match : SafeFor Q deMatch := by intro v _; cases v <;> simp [deMatch]

theorem safe_rewrite : SafeFor Q deRewrite := safe_struct fun _ _ => by simp

theorem safe_staticBody : SafeFor Q deStaticBody := by
  refine safe_variant _ _ (fun i => ?_) (fun i w hw => ?_)
  · split <;> simp_all
  · split
    · simp
    · simp
    · simp
    · rename_i v' he
      cases he
      exact bind_np (safe_str _ hw) fun _ => by simp
    · rename_i v' he
      cases he
      exact bind_np (safe_str _ hw) fun _ => by simp
    · simp

theorem safe_answer : SafeFor Q deStaticResponse :=
  safe_struct fun _ hx => bind_np (safe_field (safe_opt safe_u32) hx _ _) fun _ => bind_np (safe_field (safe_opt safe_str) hx _ _) fun _ =>
    bind_np (safe_field (safe_vec safe_str) hx _ _) fun _ => safe_field safe_staticBody hx _ _

theorem safe_early : SafeFor Q deEarly :=
  safe_struct fun _ hx => bind_np (safe_field (safe_vec safe_match) hx _ _) fun _ =>
    bind_np (safe_field (safe_opt safe_answer) hx _ _) fun _ => by simp

theorem safe_rule : SafeFor Q deRule :=
  safe_struct fun _ hx => bind_np (safe_field safe_match hx _ _) fun _ => bind_np (safe_field (safe_opt safe_rewrite) hx _ _) fun _ =>
    bind_np (safe_field (safe_opt safe_rewrite) hx _ _) fun _ => by simp

theorem safe_kind (strict : Bool) : SafeFor Q (ServiceSetting.de strict) := by
  refine safe_variant _ _ (fun i => ?_) (fun i w hw => ?_)
  · split <;> simp_all
  · split
    · rename_i v' he
      cases he
      exact safe_variantStruct (fun _ hx => bind_np (safe_field (safe_opt safe_early) hx _ _) fun _ => by simp) _ hw
    · rename_i v' he
      cases he
      exact safe_variantStruct (fun _ hx => bind_np (safe_field (safe_opt safe_early) hx _ _) fun _ =>
        bind_np (safe_field safe_str hx _ _) fun _ => bind_np (safe_field (safe_map safe_rewrite) hx _ _) fun _ => by simp) _ hw
    · rename_i v' he
      cases he
      exact safe_variantStruct (fun _ hx => bind_np (safe_field (safe_opt safe_early) hx _ _) fun _ =>
        bind_np (safe_field safe_str hx _ _) fun _ => bind_np (safe_field (safe_map safe_rule) hx _ _) fun _ => by simp) _ hw
    · rename_i v' he
      cases he
      exact safe_variantStruct (fun _ hx => bind_np (safe_field (safe_opt safe_early) hx _ _) fun _ =>
        bind_np (safe_field (safe_vec safe_str) hx _ _) fun _ => bind_np (safe_field (safe_vec safe_rule) hx _ _) fun _ => by simp) _ hw
    · simp

theorem safe_service (strict : Bool) : Safe U p (ServiceConfig.de U p strict) :=
  safe_struct fun _ hx => bind_np (safe_field safe_str hx _ _) fun _ => bind_np (safe_field safe_str hx _ _) fun _ =>
    bind_np (safe_field (safe_kind strict) hx _ _) fun _ => bind_np (safe_field (safe_logging strict) hx _ _) fun _ =>
    bind_np (safe_field safe_tcp hx _ _) fun _ => bind_np (safe_field safe_http hx _ _) fun _ => by simp

theorem safe_runtime : SafeFor Q RuntimeConfig.de :=
  safe_struct fun _ hx => bind_np (safe_field safe_u32 hx _ _) fun _ => bind_np (safe_field (safe_opt safe_bool) hx _ _) fun _ => by simp

theorem safe_file (strict : Bool) : Safe U p (ConfigFile.de U p strict) :=
  safe_struct fun _ hx => bind_np (safe_field safe_str hx _ _) fun _ => bind_np (safe_field safe_runtime hx _ _) fun _ =>
    bind_np (safe_field (safe_logging strict) hx _ _) fun _ => bind_np (safe_field safe_str hx _ _) fun _ =>
    bind_np (safe_field (safe_opt safe_str) hx _ _) fun _ => bind_np (safe_field safe_tcp hx _ _) fun _ =>
    bind_np (safe_field safe_http hx _ _) fun _ => bind_np (safe_field safe_str hx _ _) fun _ =>
    bind_np (safe_field (safe_vec safe_str) hx _ _) fun _ => bind_np (safe_field (safe_map (safe_service strict)) hx _ _) fun _ => by simp

/-- The reading of this file panics: a visible regular file that can be read. -/
def Harmful (U : Unicode) (p : Profile) (strict : Bool) (g : GlobFile) : Prop :=
  ∃ path v name, g = .ok path true true (some v) ∧ LastComponent path name ∧ name.head? ≠ some 46 ∧ ServiceConfig.de U p strict v = .panic

theorem item_panic (strict : Bool) (g : GlobFile) : g.item U p strict ≠ .error ∧ (g.item U p strict = .panic ↔ Harmful U p strict g) := by
  unfold Harmful
  cases g with
  | err => simp [GlobFile.item]
  | ok path a b t =>
    cases t with
    | none => simp [GlobFile.item]
    | some v =>
      simp only [GlobFile.item, GlobFile.ok.injEq, Option.some.injEq]
      cases h : ServiceConfig.de U p strict v with
      | value s =>
        refine ⟨by simp, by simp, ?_⟩
        rintro ⟨path', v', name, ⟨_, _, _, rfl⟩, _, _, h'⟩
        rw [h] at h'; cases h'
      | error =>
        refine ⟨by simp, by simp, ?_⟩
        rintro ⟨path', v', name, ⟨_, _, _, rfl⟩, _, _, h'⟩
        rw [h] at h'; cases h'
      | panic =>
        simp only
        cases hn : fileName path with
        | none =>
          refine ⟨by simp, by simp, ?_⟩
          rintro ⟨path', v', name, ⟨rfl, _, _, rfl⟩, hl, hd, h'⟩
          rw [fileName_none] at hn
          rw [hn name hl] at hd
          simp at hd
        | some base =>
          simp only
          rw [fileName_iff] at hn
          split
          · rename_i hc
            simp only [Bool.and_eq_true, bne_iff_ne, ne_eq] at hc
            exact ⟨by simp, fun _ => ⟨path, v, base, ⟨rfl, hc.1.1, hc.2, rfl⟩, hn.1, hc.1.2, h⟩, fun _ => rfl⟩
          · rename_i hc
            refine ⟨by simp, by simp, ?_⟩
            rintro ⟨path', v', name, ⟨rfl, ha, hb, rfl⟩, hl, hd, h'⟩
            have e : name = base := by
              have h1 := (lastComponent_iff path name).2 hl
              rw [(lastComponent_iff path base).2 hn.1] at h1
              exact (Option.some.inj h1).symm
            subst e
            simp [ha, hb, hd] at hc

theorem itemsOf_panic (strict : Bool) (gs : List GlobFile) :
    (itemsOf U p strict gs).2 = true ↔ ∃ g ∈ gs, Harmful U p strict g := by
  induction gs with
  | nil => simp [itemsOf]
  | cons g gs ih =>
    have := item_panic (U := U) (p := p) strict g
    simp only [itemsOf, List.mem_cons, exists_eq_or_imp]
    cases h : g.item U p strict with
    | value i =>
      have hn : ¬ Harmful U p strict g := fun hh => by rw [this.2.2 hh] at h; cases h
      simp [ih, hn]
    | error => exact absurd h this.1
    | panic => simp [this.2.1 h]

theorem patternItems_panic (strict : Bool) (glob : Str → Option (List GlobFile)) (pats : List Str) :
    (patternItems U p strict glob pats).2 = true ↔ ∃ pat ∈ pats, ∃ gs, glob pat = some gs ∧ ∃ g ∈ gs, Harmful U p strict g := by
  induction pats with
  | nil => simp [patternItems]
  | cons q ql ih =>
    simp only [patternItems, List.mem_cons, exists_eq_or_imp]
    cases h : glob q with
    | none => simpa using ih
    | some gs =>
      simp only [Option.some.injEq, exists_eq_left', ← itemsOf_panic]
      split
      · rename_i ht; simp [ht]
      · rename_i ht; simp [ht, ih, itemsOf_panic]

/-- **C147**, what holds: loading a configuration file panics only if a string in it, or in a visible file it includes, makes the reading
of a size or of a duration panic (which strings do: C50, C83). -/
theorem C147_load_partial (strict : Bool) (pathExists chdir : Str → Bool) (glob : Str → Option (List GlobFile))
    (order : List (Str × ServiceConfig) → List (Str × ServiceConfig)) (horder : ∀ l, (order l).Perm l) (text : Option Toml)
    (hfile : ∀ v, text = some v → ∀ s, HasString v s → parseSize U p s ≠ .panic ∧ parseDuration U p s ≠ .panic)
    (hincl : ∀ pat fs path v name, glob pat = some fs → GlobFile.ok path true true (some v) ∈ fs → LastComponent path name →
      name.head? ≠ some 46 → ∀ s, HasString v s → parseSize U p s ≠ .panic ∧ parseDuration U p s ≠ .panic) :
    loadFile U p strict pathExists chdir glob order text ≠ .panic := by
  cases text with
  | none => simp [loadFile]
  | some v =>
    refine bind_np (safe_file strict v (hfile v rfl)) fun f => ?_
    split
    · simp
    · simp only
      split
      · rename_i hp
        rw [patternItems_panic] at hp
        obtain ⟨pat, _, gs, hgs, g, hg, path, w, name, rfl, hl, hd, hw⟩ := hp
        exact absurd hw (safe_service strict w (hincl pat gs path w name hgs hg hl hd))
      · exact (C86_load pathExists _ true _ order horder).1

/-- **C147**, negation for the code as written: a size written like a word, `max_body_size = "large"`, stops the program with a panic,
not with an error message; so do the other strings at which the reading of a size panics. -/
theorem C147_panic_violated (strict : Bool) (pathExists chdir : Str → Bool) (glob : Str → Option (List GlobFile))
    (order : List (Str × ServiceConfig) → List (Str × ServiceConfig)) (s : Str) (hs : parseSize U p s = .panic) :
    loadFile U p strict pathExists chdir glob order (some (.table [(u!"http", .table [(u!"max_body_size", .str s)])])) = .panic := by
  have h1 : HttpConfig.de U p (.table [(u!"max_body_size", .str s)]) = .panic := by
    unfold HttpConfig.de
    rw [deStruct_one (i := 5) (by decide +kernel) _ _ (by decide +kernel)]
    simp [httpFields, onlyField, List.range_succ, Outcome.bind, field, deSize, hs]
  have h2 : ConfigFile.de U p strict (.table [(u!"http", .table [(u!"max_body_size", .str s)])]) = .panic := by
    generalize Toml.table [(u!"max_body_size", .str s)] = w at h1
    unfold ConfigFile.de
    rw [deStruct_one (i := 6) (by decide +kernel) _ _ (by decide +kernel)]
    simp [configFields, onlyField, List.range_succ, Outcome.bind, field, h1]
  simp [loadFile, h2, Outcome.bind]

example : parseSize asciiUnicode .release u!"large" = .panic := by decide +kernel

end

end Httpd
